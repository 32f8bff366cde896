import Verif.CoapMsg.Bounds

/-!
C18: which bytes parsing of a received message depends on, and C49: agreement of
the validation pass with the parsing pass.
-/

namespace Verif.CoapMsg

open Verif.Coap

/-- C18: parsing of a datagram ends with a status and is defined for every
content, if the buffer holds four bytes more than the datagram and at least
twelve bytes. -/
theorem udp_parse_defined_partial (cfg : Cfg) (val : Bool) (mem : List UInt8) (dataLen : Nat) (p0 : Packet Span)
    (h1 : dataLen + 4 ≤ mem.length) (h2 : 12 ≤ mem.length) :
    ∃ s q m, udpParse cfg val mem dataLen p0 = .ok (s, q, m) ∧ m.length = mem.length := by
  unfold udpParse
  split
  · exact ⟨_, _, _, rfl, rfl⟩
  · obtain ⟨b0, e0⟩ := get_lt mem 0 (by omega)
    obtain ⟨b1, e1⟩ := get_lt mem 1 (by omega)
    obtain ⟨b2, e2⟩ := get_lt mem 2 (by omega)
    obtain ⟨b3, e3⟩ := get_lt mem 3 (by omega)
    rw [e0, e1, e2, e3]
    simp only [Out.ok_bind]
    split
    · exact ⟨_, _, _, rfl, rfl⟩
    · split
      · exact ⟨_, _, _, rfl, rfl⟩
      · rename_i ht
        rw [sliceChk, if_pos (by omega)]
        simp only [Out.ok_bind, parseOptions]
        split
        · exact ⟨_, _, _, rfl, rfl⟩
        · exact optLoop_defined cfg val dataLen _ mem _ _ _ _ (by omega) (by omega) h1 (by simp [zeroPacket])
            (by simp [zeroPacket])

example : ∃ s q m, udpParse ⟨true, true, true, true, true⟩ false
    (List.replicate 30 0xED) 17 (zeroPacket ⟨0, 0⟩) = .ok (s, q, m) ∧ m.length = 30 :=
  udp_parse_defined_partial _ _ _ _ _ (by decide) (by decide)

/-- C18: two receive buffers that hold the same datagram with its whole token:
unless the message is refused as malformed, status, packet and the message as
changed in place are the same, so that nothing outside the datagram was used;
this holds even if one buffer ends with the datagram. -/
theorem udp_parse_datagram_only_partial (cfg : Cfg) (val : Bool) (a b : List UInt8) (dataLen : Nat) (p0 : Packet Span)
    (hab : Agree dataLen a b) (h4 : 4 ≤ dataLen) (b0 : UInt8) (hb0 : a[0]? = some b0)
    (htok : 4 + (b0.toNat &&& 0x0F) ≤ dataLen)
    (s : Nat) (q : Packet Span) (a' : List UInt8) (h : udpParse cfg val a dataLen p0 = .ok (s, q, a'))
    (hs : s ≠ badRequest) :
    ∃ b', udpParse cfg val b dataLen p0 = .ok (s, q, b') ∧ Agree dataLen a' b' := by
  unfold udpParse at h ⊢
  split at h
  · simp only [Out.ok.injEq, Prod.mk.injEq] at h; exact absurd h.1.symm hs
  · rename_i hl
    rw [if_neg hl]
    have hla := hab.1
    have e0 : Out.get a 0 = .ok b0 := get_eq_ok _ _ _ hb0
    obtain ⟨b1, e1⟩ := get_lt a 1 (by omega)
    obtain ⟨b2, e2⟩ := get_lt a 2 (by omega)
    obtain ⟨b3, e3⟩ := get_lt a 3 (by omega)
    rw [e0, e1, e2, e3] at h
    rw [← hab.get 0 (by omega), ← hab.get 1 (by omega), ← hab.get 2 (by omega), ← hab.get 3 (by omega), e0, e1, e2, e3]
    simp only [Out.ok_bind] at h ⊢
    split at h
    · simp only [Out.ok.injEq, Prod.mk.injEq] at h; exact absurd h.1.symm hs
    · rename_i hv
      rw [if_neg hv]
      split at h
      · simp only [Out.ok.injEq, Prod.mk.injEq] at h; exact absurd h.1.symm hs
      · rename_i ht
        rw [if_neg ht]
        obtain ⟨t1, t2⟩ := agree_sliceChk hab 4 (b0.toNat &&& 0x0F) htok
        rw [t1] at h
        rw [t2]
        simp only [Out.ok_bind, parseOptions] at h ⊢
        split at h
        · simp only [Out.ok.injEq, Prod.mk.injEq] at h; exact absurd h.1.symm hs
        · rename_i hl2
          rw [if_neg hl2]
          exact optLoop_agree cfg val dataLen _ a b _ _ _ _ s q a' hab (by simp [zeroPacket]) (by simp [zeroPacket]) h hs

/-- GET with token 7 to `/ab/c`. -/
def exGet : List UInt8 := [0x41, 1, 0, 5, 7, 0xB2, 97, 98, 0x01, 99]

example : ∃ q a', udpParse ⟨false, false, false, false, false⟩ false (exGet ++ [0xDE, 0xAD, 0xBE, 0xEF]) 10 (zeroPacket ⟨0, 0⟩)
      = .ok (0, q, a') ∧ (slice a' q.uriPath.off q.uriPath.len) = [97, 98, 47, 99] ∧ Agree 10 (exGet ++ [0xDE, 0xAD, 0xBE, 0xEF]) exGet :=
  ⟨_, _, rfl, rfl, by decide, by decide, by decide⟩

/-- C49: for one receive buffer, the validation pass leaves the message as it is;
it reports success exactly when parsing succeeds; and a message that parsing
finds malformed is already found malformed by the validation pass. -/
theorem udp_validate_agrees (cfg : Cfg) (mem : List UInt8) (dataLen : Nat) (p0 : Packet Span)
    (h1 : dataLen + 4 ≤ mem.length) (h2 : 12 ≤ mem.length) :
    ∃ s q m sv qv, udpParse cfg false mem dataLen p0 = .ok (s, q, m) ∧
      udpParse cfg true mem dataLen p0 = .ok (sv, qv, mem) ∧
      (s = noError ↔ sv = noError) ∧ (s = badRequest → sv = badRequest) := by
  obtain ⟨s, q, m, e, _⟩ := udp_parse_defined_partial cfg false mem dataLen p0 h1 h2
  obtain ⟨sv, qv, mv, ev, _⟩ := udp_parse_defined_partial cfg true mem dataLen p0 h1 h2
  rw [e, ev]
  unfold udpParse at e ev
  have key : mv = mem ∧ (s = noError ↔ sv = noError) ∧ (s = badRequest → sv = badRequest) := by
    split at e
    · rename_i hl
      rw [if_pos hl] at ev
      simp only [Out.ok.injEq, Prod.mk.injEq] at e ev
      refine ⟨ev.2.2.symm, ?_⟩
      rw [← e.1, ← ev.1]; exact ⟨Iff.rfl, fun h => h⟩
    · rename_i hl
      rw [if_neg hl] at ev
      obtain ⟨b0, e0⟩ := get_lt mem 0 (by omega)
      obtain ⟨b1, e1⟩ := get_lt mem 1 (by omega)
      obtain ⟨b2, e2⟩ := get_lt mem 2 (by omega)
      obtain ⟨b3, e3⟩ := get_lt mem 3 (by omega)
      rw [e0, e1, e2, e3] at e ev
      simp only [Out.ok_bind] at e ev
      split at e
      · rename_i hv
        rw [if_pos hv] at ev
        simp only [Out.ok.injEq, Prod.mk.injEq] at e ev
        refine ⟨ev.2.2.symm, ?_⟩
        rw [← e.1, ← ev.1]; exact ⟨Iff.rfl, fun h => h⟩
      · rename_i hv
        rw [if_neg hv] at ev
        split at e
        · rename_i ht
          rw [if_pos ht] at ev
          simp only [Out.ok.injEq, Prod.mk.injEq] at e ev
          refine ⟨ev.2.2.symm, ?_⟩
          rw [← e.1, ← ev.1]; exact ⟨Iff.rfl, fun h => h⟩
        · rename_i ht
          rw [if_neg ht] at ev
          rw [sliceChk, if_pos (by omega)] at e ev
          simp only [Out.ok_bind, parseOptions] at e ev
          rw [if_neg (by omega)] at e ev
          refine ⟨(optLoop_validate_mem _ _ _ _ _ _ _ _ _ _ _ ev).1, ?_⟩
          exact optLoop_validate cfg dataLen _ mem mem _ _ _ _ s sv q qv m mv ⟨rfl, fun _ _ => rfl⟩ (by omega) rfl
            (by simp [zeroPacket]) (by simp [zeroPacket]) (by simp [zeroPacket]) (by simp [zeroPacket]) e ev
  exact ⟨s, q, m, sv, qv, rfl, by rw [key.1], key.2⟩

/-- The two passes may report different errors: here parsing stops at the
unknown critical option 9 (4.02), validation goes on and reports the truncated
option (4.00). -/
example : (∃ q m, udpParse ⟨false, false, false, false, false⟩ false
      ([0x40, 1, 0, 0, 0x90, 0x15, 0, 0, 0, 0, 0, 0]) 6 (zeroPacket ⟨0, 0⟩) = .ok (badOption, q, m)) ∧
    (∃ q m, udpParse ⟨false, false, false, false, false⟩ true
      ([0x40, 1, 0, 0, 0x90, 0x15, 0, 0, 0, 0, 0, 0]) 6 (zeroPacket ⟨0, 0⟩) = .ok (badRequest, q, m)) :=
  ⟨⟨_, _, rfl⟩, ⟨_, _, rfl⟩⟩

/-- C18: after a message whose token lies in the datagram was accepted by
`oc_udp_is_valid_message`, it may be parsed from a buffer cut to the length of
the datagram (api/oc_network_events.c:165): no byte outside is read. -/
theorem accepted_parse_exact_partial (cfg : Cfg) (mem : List UInt8) (dataLen : Nat) (p0 : Packet Span)
    (h1 : dataLen + 4 ≤ mem.length) (h2 : 12 ≤ mem.length) (h4 : 4 ≤ dataLen)
    (b0 : UInt8) (hb0 : mem[0]? = some b0) (htok : 4 + (b0.toNat &&& 0x0F) ≤ dataLen)
    (sv : Nat) (qv : Packet Span) (mv : List UInt8)
    (hv : udpParse cfg true mem dataLen p0 = .ok (sv, qv, mv)) (hsv : sv ≠ badRequest) :
    ∃ s q m, udpParse cfg false (mem.take dataLen) dataLen p0 = .ok (s, q, m) ∧ s ≠ badRequest := by
  obtain ⟨s, q, m, sv', qv', e1, e2, _, e4⟩ := udp_validate_agrees cfg mem dataLen p0 h1 h2
  rw [hv] at e2
  simp only [Out.ok.injEq, Prod.mk.injEq] at e2
  have hs : s ≠ badRequest := fun e => hsv (by rw [e2.1, e4 e])
  have hab : Agree dataLen mem (mem.take dataLen) := by
    refine ⟨by omega, by simp; omega, fun k hk => ?_⟩
    rw [List.getElem?_take, if_pos hk]
  obtain ⟨b', hb, _⟩ := udp_parse_datagram_only_partial cfg false mem _ dataLen p0 hab h4 b0 hb0 htok s q m e1 hs
  exact ⟨s, q, b', hb, hs⟩

example : ∃ q m, udpParse ⟨false, false, false, false, false⟩ true (exGet ++ [0, 0, 0, 0]) 10 (zeroPacket ⟨0, 0⟩)
    = .ok (0, q, m) := ⟨_, _, rfl⟩

/-- C18 is false without the condition on the token: a four byte datagram that
announces a token of eight bytes passes validation and is parsed, the token being
whatever the buffer holds behind the datagram; in a buffer cut to the datagram
the read is out of bounds. -/
theorem short_token_false (stale : List UInt8) (hst : stale.length = 8) (p0 : Packet Span) (cfg : Cfg) :
    (∃ q m, udpParse cfg true ([0x48, 1, 0, 0] ++ stale) 4 p0 = .ok (noError, q, m)) ∧
    (∃ q m, udpParse cfg false ([0x48, 1, 0, 0] ++ stale) 4 p0 = .ok (noError, q, m) ∧ q.token = stale) ∧
    udpParse cfg false [0x48, 1, 0, 0] 4 p0 = .ub := by
  have hs : sliceChk ([0x48, 1, 0, 0] ++ stale) 4 ((0x48 : UInt8).toNat &&& 0x0F) = .ok stale := by
    rw [sliceChk, if_pos (by simp [hst])]
    simp [slice, ← hst]
  refine ⟨?_, ?_, rfl⟩
  · simp only [udpParse, List.cons_append, List.nil_append] at hs ⊢
    simp only [Out.get, List.getElem?_cons_zero, List.getElem?_cons_succ, Out.ok_bind, hs]
    exact ⟨_, _, rfl⟩
  · simp only [udpParse, List.cons_append, List.nil_append] at hs ⊢
    simp only [Out.get, List.getElem?_cons_zero, List.getElem?_cons_succ, Out.ok_bind, hs]
    exact ⟨_, _, rfl, rfl⟩

/-- C18 is false for a datagram whose last option header announces extension
bytes: they are read before the length is checked. -/
theorem truncated_option_false (p0 : Packet Span) (cfg : Cfg) :
    udpParse cfg true [0x40, 1, 0, 0, 0xEE] 5 p0 = .ub := rfl

/-- C18 is false for datagrams shorter than the CoAP header. -/
theorem short_datagram_false (p0 : Packet Span) (cfg : Cfg) : udpParse cfg true [0x40, 1] 2 p0 = .ub := rfl

/-! ### TCP -/

theorem tcpExt_agree {n : Nat} {a b : List UInt8} (hab : Agree n a b) : ∀ (k i : Nat), i + k ≤ n →
    tcpExt a i k = tcpExt b i k ∧ ∃ v, tcpExt a i k = .ok v := by
  intro k
  induction k with
  | zero => intro i _; exact ⟨rfl, _, rfl⟩
  | succ k ih =>
    intro i hi
    obtain ⟨v, e⟩ := get_lt a i (by have := hab.1; omega)
    obtain ⟨e1, w, e2⟩ := ih (i + 1) (by omega)
    constructor
    · rw [tcpExt, tcpExt, ← hab.get i (by omega), e1]
    · rw [tcpExt, e, Out.ok_bind, e2]; exact ⟨_, rfl⟩

theorem tcpParseLength_agree {n : Nat} {a b : List UInt8} (hab : Agree n a b) (hn : 0 < n) :
    tcpParseLength a n = tcpParseLength b n ∧ ∃ r, tcpParseLength a n = .ok r := by
  obtain ⟨v, e⟩ := get_lt a 0 (by have := hab.1; omega)
  unfold tcpParseLength
  rw [if_neg (by omega), if_neg (by omega), ← hab.get 0 hn, e]
  simp only [Out.ok_bind]
  split
  · exact ⟨rfl, _, rfl⟩
  · split
    · exact ⟨rfl, _, rfl⟩
    · obtain ⟨e1, w, e2⟩ := tcpExt_agree hab (1 <<< ((240 &&& v.toNat) >>> 4 - 13)) 1 (by omega)
      rw [← e1, e2]
      exact ⟨rfl, _, rfl⟩

/-- What the complete receipt of a message (port/linux/tcpsession.c:465-486)
guarantees to the parser. -/
theorem tcpPacketSize_parts (mem : List UInt8) (dataLen n : Nat) (h : tcpPacketSize mem dataLen = .ok (some n)) :
    ∃ l ext b, tcpParseLength mem dataLen = .ok (some (l, ext)) ∧ Out.get mem 0 = .ok b ∧ 0 < dataLen ∧
      n = 2 + ext + (b.toNat &&& 0x0F) + l := by
  unfold tcpPacketSize at h
  cases e : tcpParseLength mem dataLen with
  | ub => simp [e] at h
  | ok r =>
    cases r with
    | none => simp [e] at h
    | some r =>
      obtain ⟨l, ext⟩ := r
      simp only [e, Out.ok_bind] at h
      cases e0 : Out.get mem 0 with
      | ub => simp [e0] at h
      | ok b =>
        simp only [e0, Out.ok_bind, Out.ok.injEq, Option.some.injEq] at h
        refine ⟨l, ext, b, rfl, rfl, ?_, by rw [Nat.and_comm]; exact h.symm⟩
        unfold tcpParseLength at e
        split at e
        · simp at e
        · omega

/-- C18 for TCP: a message received completely is parsed without undefined
behaviour when four more bytes belong to the buffer. -/
theorem tcp_parse_defined_partial (cfg : Cfg) (val : Bool) (mem : List UInt8) (dataLen n : Nat) (p0 : Packet Span)
    (h1 : dataLen + 4 ≤ mem.length) (hn : tcpPacketSize mem dataLen = .ok (some n)) (hle : n ≤ dataLen) :
    ∃ s q m, tcpParse cfg val mem dataLen p0 = .ok (s, q, m) ∧ m.length = mem.length := by
  obtain ⟨l, ext, b, e1, e2, _, e3⟩ := tcpPacketSize_parts mem dataLen n hn
  unfold tcpParse
  split
  · exact ⟨_, _, _, rfl, rfl⟩
  · obtain ⟨c, ec⟩ := get_lt mem (1 + ext) (by omega)
    rw [e1]
    simp only [Out.ok_bind, e2, ec]
    split
    · exact ⟨_, _, _, rfl, rfl⟩
    · rw [sliceChk, if_pos (by omega)]
      simp only [Out.ok_bind, parseOptions]
      split
      · exact ⟨_, _, _, rfl, rfl⟩
      · exact optLoop_defined cfg val dataLen _ mem _ _ _ _ (by omega) (by omega) h1 (by simp [zeroPacket])
          (by simp [zeroPacket])

/-- C18 for TCP: apart from refused messages, parsing uses the message only. -/
theorem tcp_parse_message_only_partial (cfg : Cfg) (val : Bool) (a b : List UInt8) (dataLen n : Nat) (p0 : Packet Span)
    (hab : Agree dataLen a b) (hn : tcpPacketSize a dataLen = .ok (some n)) (hle : n ≤ dataLen)
    (s : Nat) (q : Packet Span) (a' : List UInt8) (h : tcpParse cfg val a dataLen p0 = .ok (s, q, a'))
    (hs : s ≠ badRequest) :
    ∃ b', tcpParse cfg val b dataLen p0 = .ok (s, q, b') ∧ Agree dataLen a' b' := by
  obtain ⟨l, ext, b0, e1, e2, hpos, e3⟩ := tcpPacketSize_parts a dataLen n hn
  have hla := hab.1
  unfold tcpParse at h ⊢
  split at h
  · simp only [Out.ok.injEq, Prod.mk.injEq] at h; exact absurd h.1.symm hs
  · rename_i hl
    obtain ⟨c, ec⟩ := get_lt a (1 + ext) (by omega)
    rw [if_neg hl, ← (tcpParseLength_agree hab hpos).1, e1]
    rw [e1] at h
    simp only [Out.ok_bind, e2, ec] at h
    simp only [Out.ok_bind, ← hab.get 0 hpos, ← hab.get (1 + ext) (by omega), e2, ec]
    split at h
    · simp only [Out.ok.injEq, Prod.mk.injEq] at h; exact absurd h.1.symm hs
    · rename_i ht
      rw [if_neg ht]
      obtain ⟨t1, t2⟩ := agree_sliceChk hab (2 + ext) (b0.toNat &&& 0x0F) (by omega)
      rw [t1] at h
      rw [t2]
      simp only [Out.ok_bind, parseOptions] at h ⊢
      split at h
      · simp only [Out.ok.injEq, Prod.mk.injEq] at h; exact absurd h.1.symm hs
      · rename_i hl2
        rw [if_neg hl2]
        exact optLoop_agree cfg val dataLen _ a b _ _ _ _ s q a' hab (by simp [zeroPacket]) (by simp [zeroPacket]) h hs

example : tcpPacketSize [0x51, 1, 7, 0xB2, 97, 98, 0x01, 99, 0, 0, 0, 0] 8 = .ok (some 8) ∧
    ∃ q m, tcpParse ⟨true, false, false, false, false⟩ false
      [0x51, 1, 7, 0xB2, 97, 98, 0x01, 99, 0, 0, 0, 0] 8 (zeroPacket ⟨0, 0⟩) = .ok (0, q, m) :=
  ⟨rfl, _, _, rfl⟩

end Verif.CoapMsg
