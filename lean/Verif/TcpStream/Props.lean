import Verif.TcpStream.Model
import Verif.CoapMsg.Props
import Verif.CoapMsg.Safety

/-!
C19: a stream of messages is split into the messages that were sent.
-/

namespace Verif.TcpStream

open Verif.CoapMsg Verif.CoapMsg.Spec Verif.Coap

/-- A message whose length can be told from its first `hdr` bytes, however many
more bytes have arrived (specification). -/
def Framed (tls : Bool) (hdr : Nat) (m : List UInt8) : Prop :=
  1 ≤ hdr ∧ hdr ≤ m.length ∧ ∀ k, hdr ≤ k → k ≤ m.length → totalLength (m.take k) tls = .ok (some m.length)

/-- Events of a connection without failure. -/
def Good (evs : List Ev) : Prop := ∀ e ∈ evs, e = .intr ∨ ∃ c, e = .data c ∧ 0 < c

/-- The total length in the header of a serialized message is the length of the
message, as soon as the extended length bytes have arrived. -/
theorem serialized_framed (cfg : Cfg) (maxHdr : Nat) (p : Packet CStr) (hv : Valid cfg p) (bufferSize : Nat)
    (msg : List UInt8) (hser : serialize cfg maxHdr true p bufferSize = .ok (some msg))
    (hlen : msg.length ≤ 4294967295) : ∃ hdr ≤ 5, Framed false hdr msg := by
  obtain ⟨s, opts, tail, h3, h4, h5, htail, hmsg⟩ := serialize_some cfg maxHdr true p bufferSize hv msg hser
  have htl := hv.token
  have hhl := headerOf_length true p s.out.length p.payload.len
  rw [if_pos rfl] at hhl
  have htail' : tail.length = if p.payload.len > 0 then 1 + p.payload.len else 0 := by
    rw [htail]; split
    · simp [text_length _ hv.payload]; omega
    · rfl
  have hbody : bodyLen s.out.length p.payload.len = s.out.length + tail.length := by rw [htail', bodyLen]
  have hml : msg.length = (headerOf true p s.out.length p.payload.len).length + p.token.length
      + (s.out.length + tail.length) := by rw [hmsg]; simp; omega
  have hb : bodyLen s.out.length p.payload.len < 65805 + 2 ^ 32 := by omega
  have hext : (tcpComputeLength s.out.length p.payload.len).2.1 ≤ 4 := by
    rcases tcpCompute_cases _ _ hb with ⟨hc, hl⟩ | ⟨a, d, had, hc1, hc2, _⟩
    · rw [hc]; simp
    · rw [hc2]; simp at had
      rcases had with ⟨rfl, _⟩ | ⟨rfl, _⟩ | ⟨rfl, _⟩ <;> decide
  have hlt : (tcpComputeLength s.out.length p.payload.len).1 < 16 := by
    rcases tcpCompute_cases _ _ hb with ⟨hc, hl⟩ | ⟨a, d, had, hc1, _⟩
    · rw [hc]; simp only; omega
    · rw [hc1]; simp at had; omega
  refine ⟨1 + (tcpComputeLength s.out.length p.payload.len).2.1, by omega, by omega, by omega, ?_⟩
  intro k hk hkm
  have hnib := (nibbles _ _ hlt (show p.token.length < 16 by omega)).1
  have hvalid : validHeader (msg.take k) false = true := by
    obtain ⟨k', rfl⟩ : ∃ k', k = k' + 1 := ⟨k - 1, by omega⟩
    rw [hmsg]
    simp only [headerOf, tcpHeader, if_true, List.cons_append, List.take_succ_cons, validHeader, hnib]
    simp only [Bool.false_eq_true, if_false, decide_eq_true_eq]
    exact htl
  have hkl : (msg.take k).length = k := by simp; omega
  unfold totalLength
  rw [hvalid, hkl]
  simp only [Bool.not_true, Bool.false_eq_true, if_false]
  have hfull := tcpPacketSize_header p htl s.out.length p.payload.len hb (p.token ++ (s.out ++ tail)) k hk
  have hm2 : headerOf true p s.out.length p.payload.len ++ (p.token ++ (s.out ++ tail)) = msg := by
    rw [hmsg]; simp
  rw [hm2, hbody, show 2 + (tcpComputeLength s.out.length p.payload.len).2.1 + p.token.length
    + (s.out.length + tail.length) = msg.length by omega] at hfull
  have hab : Agree k (msg.take k) msg := by
    refine ⟨by omega, hkm, fun i hi => ?_⟩
    rw [List.getElem?_take, if_pos hi]
  rw [← hfull]
  unfold tcpPacketSize
  rw [(tcpParseLength_agree hab (by omega)).1, hab.get 0 (by omega)]

theorem take_append_take (m rest : List UInt8) (j k : Nat) (h : j + k ≤ m.length) :
    m.take j ++ (m.drop j ++ rest).take k = m.take (j + k) := by
  rw [List.take_append_of_le_length (by simp; omega), List.take_add]

theorem drop_drop_append (m rest : List UInt8) (j k : Nat) (h : j + k ≤ m.length) :
    (m.drop j ++ rest).drop k = m.drop (j + k) ++ rest := by
  rw [List.drop_append_of_le_length (by simp; omega), List.drop_drop]

/-- Once the length is known, exactly the rest of the message is read. -/
theorem recvLoop_rest (tls : Bool) (bufSize : Nat) (m rest : List UInt8) (evs : List Ev) (hg : Good evs) :
    ∀ (j : Nat), 0 < j → j < m.length →
      recvLoop tls bufSize evs (m.drop j ++ rest) (m.take j) m.length (m.length - j) = .ok .blocked ∨
      ∃ es, recvLoop tls bufSize evs (m.drop j ++ rest) (m.take j) m.length (m.length - j) = .ok (.done m rest es) := by
  induction evs with
  | nil => intro j _ _; exact Or.inl rfl
  | cons e es ih =>
    intro j hj hlt
    have hlj : (m.take j).length = j := by simp; omega
    have hges : Good es := fun x hx => hg x (List.mem_cons_of_mem _ hx)
    rcases hg e (by simp) with rfl | ⟨c, rfl, hc⟩
    · rw [recvLoop, if_pos (by omega)]
      exact ih hges j hj hlt
    · have hne : m.drop j ++ rest ≠ [] := by
        intro h
        have := congrArg List.length h
        simp at this; omega
      rw [recvLoop, if_neg (by omega), if_neg hne]
      have hsl : (m.drop j ++ rest).length = m.length - j + rest.length := by simp
      dsimp only
      rw [if_neg (by omega)]
      have hk : min c (min (m.length - j) (m.drop j ++ rest).length) = min c (m.length - j) := by omega
      rw [hk]
      have hk1 : 0 < min c (m.length - j) := by omega
      have hk2 : min c (m.length - j) ≤ m.length - j := by omega
      generalize min c (m.length - j) = k at hk1 hk2
      rw [take_append_take m rest j k (by omega), drop_drop_append m rest j k (by omega)]
      have hl2 : (m.take (j + k)).length = j + k := by simp; omega
      rw [hl2]
      by_cases hfin : m.length > j + k
      · rw [if_pos hfin, show m.length - j - k = m.length - (j + k) by omega]
        exact ih hges (j + k) (by omega) hfin
      · rw [if_neg hfin]
        have : j + k = m.length := by omega
        right
        refine ⟨es, ?_⟩
        rw [this]; simp

/-- C19, one message: whatever follows it in the stream and however the rest is
cut into pieces, the message is received whole and alone, provided the first
piece holds the length header and is not longer than the message. -/
theorem receive_one (cfg : Cfg) (tls : Bool) (bufSize : Nat) (slack m rest : List UInt8) (hdr : Nat)
    (hf : Framed tls hdr m) (hb : m.length ≤ bufSize)
    (hvalid : tls = true ∨ ∃ q m', tcpParse cfg true (m ++ slack) m.length (zeroPacket ⟨0, 0⟩) = .ok (noError, q, m'))
    (c : Nat) (hc1 : hdr ≤ min c 6) (hc2 : min c 6 ≤ m.length) (evs : List Ev) (hg : Good evs) :
    receive cfg tls bufSize slack (.data c :: evs) (m ++ rest) = .ok .blocked ∨
    ∃ es, receive cfg tls bufSize slack (.data c :: evs) (m ++ rest) = .ok (.done m rest es) := by
  have key : recvLoop tls bufSize (.data c :: evs) (m ++ rest) [] 0 6 = .ok .blocked ∨
      ∃ es, recvLoop tls bufSize (.data c :: evs) (m ++ rest) [] 0 6 = .ok (.done m rest es) := by
    obtain ⟨h1, h2, h3⟩ := hf
    have hne : m ++ rest ≠ [] := by
      intro h
      have := congrArg List.length h
      simp only [List.length_append, List.length_nil] at this; omega
    rw [recvLoop, if_neg (by omega), if_neg hne]
    have hk : min c (min 6 (m ++ rest).length) = min c 6 := by simp; omega
    dsimp only
    rw [hk, if_pos rfl]
    generalize hkk : min c 6 = k at *
    have ht : [] ++ (m ++ rest).take k = m.take k := by
      rw [List.nil_append, List.take_append_of_le_length hc2]
    have hd : (m ++ rest).drop k = m.drop k ++ rest := List.drop_append_of_le_length hc2
    rw [ht, hd, h3 k hc1 hc2]
    simp only [Out.ok_bind]
    rw [if_neg (by omega)]
    have hl : (m.take k).length = k := by simp; omega
    rw [hl]
    by_cases hfin : m.length > k
    · rw [if_pos hfin]
      exact recvLoop_rest tls bufSize m rest evs hg k (by omega) hfin
    · rw [if_neg hfin]
      have : k = m.length := by omega
      right
      refine ⟨evs, ?_⟩
      rw [this]; simp
  unfold receive
  rcases key with h | ⟨es, h⟩
  · rw [h]; exact Or.inl rfl
  · rw [h]
    right
    refine ⟨es, ?_⟩
    simp only [Out.ok_bind]
    rcases hvalid with ht | ⟨q, m', ht⟩
    · rw [ht]; rfl
    · cases tls
      · rw [ht]; rfl
      · rfl

/-- The events of one call fit the message `m`. -/
def Fits (hdr : Nat) (m : List UInt8) (evs : List Ev) : Prop :=
  ∃ c es, evs = .data c :: es ∧ hdr ≤ min c 6 ∧ min c 6 ≤ m.length ∧ Good es

/-- C19: any number of messages, any chunking: when every call delivered a
message, the messages delivered are the ones sent, in order, and the rest of the
stream is untouched. -/
theorem stream_split_partial (cfg : Cfg) (tls : Bool) (bufSize : Nat) (slack rest : List UInt8)
    (ms : List (List UInt8)) (evss : List (List Ev)) (hlen : evss.length = ms.length)
    (hm : ∀ i (h : i < ms.length), ∃ hdr, Framed tls hdr ms[i] ∧ Fits hdr ms[i] (evss[i]'(by omega)) ∧
      ms[i].length ≤ bufSize ∧
      (tls = true ∨ ∃ q m', tcpParse cfg true (ms[i] ++ slack) ms[i].length (zeroPacket ⟨0, 0⟩) = .ok (noError, q, m'))) :
    ∃ r, receiveAll cfg tls bufSize slack evss (ms.flatten ++ rest) = .ok r ∧ (r = none ∨ r = some (ms, rest)) := by
  induction ms generalizing evss with
  | nil =>
    have : evss = [] := by cases evss with | nil => rfl | cons _ _ => simp at hlen
    subst this
    exact ⟨_, rfl, Or.inr rfl⟩
  | cons m ms ih =>
    cases evss with
    | nil => simp at hlen
    | cons evs evss =>
      obtain ⟨hdr, hf, ⟨c, es, hev, hc1, hc2, hg⟩, hb, hv⟩ := hm 0 (by simp)
      simp only [List.getElem_cons_zero] at hf hev hc1 hc2 hg hb hv
      obtain ⟨r, hr1, hr2⟩ := ih evss (by simpa using hlen) (fun i h => by
        have := hm (i + 1) (by simp; omega)
        simpa using this)
      rw [receiveAll, hev]
      have hst : (m :: ms).flatten ++ rest = m ++ (ms.flatten ++ rest) := by simp
      rw [hst]
      rcases receive_one cfg tls bufSize slack m (ms.flatten ++ rest) hdr hf hb hv c hc1 hc2 es hg with h | ⟨es', h⟩
      · rw [h]; exact ⟨_, rfl, Or.inl rfl⟩
      · rw [h]
        simp only [Out.ok_bind]
        rw [hr1]
        simp only [Out.ok_bind]
        rcases hr2 with rfl | rfl
        · exact ⟨_, rfl, Or.inl rfl⟩
        · exact ⟨_, rfl, Or.inr rfl⟩

/-- A call makes progress: when the events offer as many bytes as the message
has, the message is delivered. -/
theorem recvLoop_progress (tls : Bool) (bufSize : Nat) (m rest : List UInt8) (evs : List Ev) (hg : Good evs) :
    ∀ (j : Nat), 0 < j → j < m.length →
      m.length - j ≤ (evs.map fun e => match e with | .data c => c | _ => 0).sum →
      ∃ es, recvLoop tls bufSize evs (m.drop j ++ rest) (m.take j) m.length (m.length - j) = .ok (.done m rest es) := by
  induction evs with
  | nil => intro j _ h1 h2; simp at h2; omega
  | cons e es ih =>
    intro j hj hlt hsum
    have hlj : (m.take j).length = j := by simp; omega
    have hges : Good es := fun x hx => hg x (List.mem_cons_of_mem _ hx)
    rcases hg e (by simp) with rfl | ⟨c, rfl, hc⟩
    · rw [recvLoop, if_pos (by omega)]
      exact ih hges j hj hlt (by simpa using hsum)
    · have hne : m.drop j ++ rest ≠ [] := by
        intro h
        have := congrArg List.length h
        simp at this; omega
      simp only [List.map_cons, List.sum_cons] at hsum
      rw [recvLoop, if_neg (by omega), if_neg hne]
      have hsl : (m.drop j ++ rest).length = m.length - j + rest.length := by simp
      dsimp only
      rw [if_neg (by omega)]
      have hk : min c (min (m.length - j) (m.drop j ++ rest).length) = min c (m.length - j) := by omega
      rw [hk]
      have hk1 : 0 < min c (m.length - j) := by omega
      have hk2 : min c (m.length - j) ≤ m.length - j := by omega
      have hk3 : min c (m.length - j) = c ∨ min c (m.length - j) = m.length - j := by omega
      generalize min c (m.length - j) = k at hk1 hk2 hk3
      rw [take_append_take m rest j k (by omega), drop_drop_append m rest j k (by omega)]
      have hl2 : (m.take (j + k)).length = j + k := by simp; omega
      rw [hl2]
      by_cases hfin : m.length > j + k
      · rw [if_pos hfin, show m.length - j - k = m.length - (j + k) by omega]
        exact ih hges (j + k) (by omega) hfin (by omega)
      · rw [if_neg hfin]
        have : j + k = m.length := by omega
        refine ⟨es, ?_⟩
        rw [this]; simp

/-- C19, progress for one message: when the pieces offered hold the message, it is
delivered. -/
theorem receive_delivers (cfg : Cfg) (tls : Bool) (bufSize : Nat) (slack m rest : List UInt8) (hdr : Nat)
    (hf : Framed tls hdr m) (hb : m.length ≤ bufSize)
    (hvalid : tls = true ∨ ∃ q m', tcpParse cfg true (m ++ slack) m.length (zeroPacket ⟨0, 0⟩) = .ok (noError, q, m'))
    (c : Nat) (hc1 : hdr ≤ min c 6) (hc2 : min c 6 ≤ m.length) (evs : List Ev) (hg : Good evs)
    (hsum : m.length ≤ min c 6 + (evs.map fun e => match e with | .data c => c | _ => 0).sum) :
    ∃ es, receive cfg tls bufSize slack (.data c :: evs) (m ++ rest) = .ok (.done m rest es) := by
  rcases receive_one cfg tls bufSize slack m rest hdr hf hb hvalid c hc1 hc2 evs hg with h | h
  · exfalso
    obtain ⟨h1, h2, h3⟩ := hf
    have hne : m ++ rest ≠ [] := by
      intro h
      have := congrArg List.length h
      simp only [List.length_append, List.length_nil] at this; omega
    unfold receive at h
    rw [recvLoop, if_neg (by omega), if_neg hne] at h
    have hk : min c (min 6 (m ++ rest).length) = min c 6 := by simp; omega
    dsimp only at h
    rw [hk, if_pos rfl] at h
    generalize hkk : min c 6 = k at *
    have ht : [] ++ (m ++ rest).take k = m.take k := by
      rw [List.nil_append, List.take_append_of_le_length hc2]
    have hd : (m ++ rest).drop k = m.drop k ++ rest := List.drop_append_of_le_length hc2
    rw [ht, hd, h3 k hc1 hc2] at h
    simp only [Out.ok_bind] at h
    rw [if_neg (by omega)] at h
    have hl : (m.take k).length = k := by simp; omega
    rw [hl] at h
    have fin : ∀ (r s : List UInt8) (es : List Ev), (Out.ok (Rx.done r s es)).bind (fun r => match r with
        | .done msg rest es =>
          if tls then .ok (.done msg rest es)
          else (tcpParse cfg true (msg ++ slack) msg.length (zeroPacket ⟨0, 0⟩)).bind fun v =>
            if v.1 = noError then .ok (.done msg rest es) else .ok .closed
        | r => .ok r) ≠ Out.ok Rx.blocked := by
      intro r s es hh
      simp only [Out.bind] at hh
      split at hh
      · simp at hh
      · cases hq : tcpParse cfg true (r ++ slack) r.length (zeroPacket ⟨0, 0⟩) with
        | ub => rw [hq] at hh; simp at hh
        | ok v =>
          rw [hq] at hh
          simp only at hh
          split at hh <;> simp at hh
    by_cases hfin : m.length > k
    · rw [if_pos hfin] at h
      obtain ⟨es, he⟩ := recvLoop_progress tls bufSize m rest evs hg k (by omega) hfin (by omega)
      rw [he] at h
      exact fin _ _ _ h
    · rw [if_neg hfin] at h
      exact fin _ _ _ h
  · exact h

/-- C19, progress: when the pieces of every call hold its message, exactly the
messages sent are delivered. -/
theorem stream_delivered_partial (cfg : Cfg) (tls : Bool) (bufSize : Nat) (slack rest : List UInt8)
    (ms : List (List UInt8)) (evss : List (List Ev)) (hlen : evss.length = ms.length)
    (hm : ∀ i (h : i < ms.length), ∃ hdr c es, Framed tls hdr ms[i] ∧
      (evss[i]'(by omega)) = .data c :: es ∧ hdr ≤ min c 6 ∧ min c 6 ≤ ms[i].length ∧ Good es ∧
      ms[i].length ≤ min c 6 + (es.map fun e => match e with | .data c => c | _ => 0).sum ∧
      ms[i].length ≤ bufSize ∧
      (tls = true ∨ ∃ q m', tcpParse cfg true (ms[i] ++ slack) ms[i].length (zeroPacket ⟨0, 0⟩) = .ok (noError, q, m'))) :
    receiveAll cfg tls bufSize slack evss (ms.flatten ++ rest) = .ok (some (ms, rest)) := by
  induction ms generalizing evss with
  | nil =>
    have : evss = [] := by cases evss with | nil => rfl | cons _ _ => simp at hlen
    subst this
    rfl
  | cons m ms ih =>
    cases evss with
    | nil => simp at hlen
    | cons evs evss =>
      obtain ⟨hdr, c, es, hf, hev, hc1, hc2, hg, hsum, hb, hv⟩ := hm 0 (by simp)
      simp only [List.getElem_cons_zero] at hf hev hc1 hc2 hg hsum hb hv
      have hr := ih evss (by simpa using hlen) (fun i h => by
        have := hm (i + 1) (by simp; omega)
        simpa using this)
      rw [receiveAll, hev]
      have hst : (m :: ms).flatten ++ rest = m ++ (ms.flatten ++ rest) := by simp
      rw [hst]
      obtain ⟨es', h⟩ := receive_delivers cfg tls bufSize slack m (ms.flatten ++ rest) hdr hf hb hv c hc1 hc2 es hg hsum
      rw [h]
      simp only [Out.ok_bind]
      rw [hr]
      rfl

/-! ### A concrete stream -/

/-- The message of `Verif.CoapMsg.exMsg_tcp`. -/
def exTcp : List UInt8 := 0xD8 :: 27 :: 2 :: exBytes.drop 4

/-- Two copies of the example message, received in pieces with interrupts. -/
example : receiveAll exCfg false 1024 [0, 0, 0, 0]
    [[.data 3, .intr, .data 7, .data 100], [.data 50, .data 1, .intr, .data 1, .data 90]]
    ([exTcp, exTcp].flatten ++ [0xD8, 27]) = .ok (some ([exTcp, exTcp], [0xD8, 27])) := by decide +kernel

example : ∃ hdr ≤ 5, Framed false hdr exTcp :=
  serialized_framed exCfg 200 exMsg exMsg_valid 1024 exTcp exMsg_tcp (by decide)

/-- A TLS record is framed by its first five bytes. -/
theorem tls_record_framed (t mi h l : UInt8) (body : List UInt8)
    (ht : t = 20 ∨ t = 21 ∨ t = 22 ∨ t = 23 ∨ t = 25) (hmi : mi = 1 ∨ mi = 2 ∨ mi = 3 ∨ mi = 4)
    (hl : body.length = h.toNat * 256 + l.toNat) : Framed true 5 (t :: 3 :: mi :: h :: l :: body) := by
  refine ⟨by omega, by simp, ?_⟩
  intro k hk hkm
  obtain ⟨k', rfl⟩ : ∃ k', k = k' + 5 := ⟨k - 5, by omega⟩
  simp only [List.take_succ_cons]
  have hvh : validHeader (t :: 3 :: mi :: h :: l :: body.take k') true = true := by
    rcases ht with rfl | rfl | rfl | rfl | rfl <;> rcases hmi with rfl | rfl | rfl | rfl <;> rfl
  unfold totalLength
  rw [hvh]
  simp only [Bool.not_true, Bool.false_eq_true, if_false, if_true]
  rw [if_neg (by simp)]
  have hsum : h.toNat <<< 8 ||| l.toNat = body.length := by
    rw [← Nat.shiftLeft_add_eq_or_of_lt (by exact l.toNat_lt), Nat.shiftLeft_eq, hl]
  simp only [Out.get, List.getElem?_cons_succ, List.getElem?_cons_zero, Out.ok_bind, hsum]
  simp; omega

example : Framed true 5 [23, 3, 3, 0, 2, 0xAA, 0xBB] :=
  tls_record_framed 23 3 0 2 [0xAA, 0xBB] (by decide) (by decide) (by decide)

/-- C19 is false for messages shorter than six bytes: each of two empty messages
is received when it arrives alone, but when they arrive together the first `recv`
takes both, the length check fails and the session is closed. -/
theorem short_messages_false :
    receive exCfg false 1024 [0, 0, 0, 0] [.data 2, .data 100] [0x00, 0x45, 0x00, 0x45]
      = .ok (.done [0x00, 0x45] [0x00, 0x45] [.data 100]) ∧
    receive exCfg false 1024 [0, 0, 0, 0] [.data 100] [0x00, 0x45, 0x00, 0x45] = .ok .closed := by
  decide +kernel

/-- C19 is false when the first piece does not hold the whole length header: the
session is closed. -/
theorem split_header_false : receive exCfg false 1024 [0, 0, 0, 0] [.data 1, .data 100] exTcp = .ok .closed := by
  decide +kernel

/-- The same for a TLS record of which fewer than five bytes arrive first. -/
theorem split_tls_header_false :
    receive exCfg true 1024 [0, 0, 0, 0] [.data 4, .data 100] [23, 3, 3, 0, 2, 0xAA, 0xBB] = .ok .closed := by
  decide +kernel

/-- C19 is false when the first `recv` is interrupted by a signal: `continue`
leaves the loop with an empty message, on which the parser's precondition
`data_size > 0` fails. -/
theorem first_recv_interrupted_false :
    receive exCfg false 1024 [0, 0, 0, 0] [.intr, .data 100] exTcp = .ub := by
  decide +kernel

end Verif.TcpStream
