import Verif.Oscore.Lemmas
import Verif.Coap.Props

/-!
Properties of partial IVs, nonces and the OSCORE option (C32, C33, C36, C53).
-/

namespace Verif.Oscore
open Verif.Coap.Spec Verif.Coap

/-! ### C32: partial IVs -/

/-- C32: every sequence number below 2^40 is read back from its partial IV. -/
theorem piv_roundtrip (n : Nat) (h : n < 2 ^ 40) :
    readPiv (storePiv (BitVec.ofNat 64 n)) = .ok (BitVec.ofNat 64 n) := by
  rw [readPiv_eq _ (Nat.le_trans (storePiv_length _) (by decide)), storePiv_mod, BitVec.toNat_ofNat]
  congr 2
  omega

/-- C32: the partial IV is the big-endian form of the number with at most five
bytes, and no byte string of that value is shorter; the number 0 is one zero
byte. -/
theorem piv_shortest (n : Nat) (h : n < 2 ^ 40) :
    beVal (storePiv (BitVec.ofNat 64 n)) = n ∧
    (storePiv (BitVec.ofNat 64 n)).length ≤ 5 ∧
    (n = 0 → storePiv (BitVec.ofNat 64 n) = [0]) ∧
    (0 < n → ∀ q : List UInt8, beVal q = n → (storePiv (BitVec.ofNat 64 n)).length ≤ q.length) := by
  have hv : beVal (storePiv (BitVec.ofNat 64 n)) = n := by
    rw [storePiv_mod, BitVec.toNat_ofNat]; omega
  refine ⟨hv, storePiv_length _, ?_, ?_⟩
  · rintro rfl; rfl
  · intro hp q hq
    have hne : BitVec.ofNat 64 n ≠ 0#64 := by
      intro e
      have := congrArg BitVec.toNat e
      rw [BitVec.toNat_ofNat, BitVec.toNat_ofNat] at this
      omega
    cases e : storePiv (BitVec.ofNat 64 n) with
    | nil => simp
    | cons x t =>
      have hx := storePiv_head _ hne x t e
      rw [e] at hv
      have h1 : 1 ≤ x.toNat := by
        apply Nat.pos_of_ne_zero
        intro h0
        exact hx (UInt8.toNat_inj.mp h0)
      have hl : 256 ^ t.length ≤ beVal (x :: t) := by
        rw [beVal]
        have := Nat.mul_le_mul_right (256 ^ t.length) h1
        omega
      have hlt := beVal_lt q
      rw [hq, ← hv] at hlt
      have : 256 ^ t.length < 256 ^ q.length := Nat.lt_of_le_of_lt hl hlt
      have := (Nat.pow_lt_pow_iff_right (a := 256) (by decide)).mp this
      simp; omega

/-- C32: reading takes the big-endian value of any partial IV that fits into
the word. -/
theorem piv_value (piv : List UInt8) (h : piv.length ≤ 8) :
    ∃ w, readPiv piv = .ok w ∧ w.toNat = beVal piv := by
  refine ⟨_, readPiv_eq piv h, ?_⟩
  rw [BitVec.toNat_ofNat, Nat.mod_eq_of_lt]
  have := beVal_lt piv
  have : 256 ^ piv.length ≤ 256 ^ 8 := Nat.pow_le_pow_right (by decide) h
  omega

example : storePiv (BitVec.ofNat 64 0x012345) = [0x01, 0x23, 0x45] := by decide
example : storePiv (BitVec.ofNat 64 0x100) = [0x01, 0x00] := by decide
example : readPiv [0x01, 0x23, 0x45] = .ok 0x012345#64 := by decide
example : beVal [0, 1, 0] = 256 := by decide

/-- Limit of C32: from 2^40 on the number is cut off without any error, so that
the partial IV of 2^40 + 1 is that of 1. -/
theorem piv_exhausted_false :
    storePiv (BitVec.ofNat 64 (2 ^ 40 + 1)) = storePiv (BitVec.ofNat 64 1) := by decide

/-- Limit of C32: the partial IV of 2^40 is empty. -/
theorem piv_empty_false : storePiv (BitVec.ofNat 64 (2 ^ 40)) = [] := by decide

/-! ### C33: nonces -/

/-- The nonce of RFC 8613 section 5.2 before the XOR. -/
def Spec.base (id piv : List UInt8) : List UInt8 :=
  UInt8.ofNat id.length :: (List.replicate (7 - id.length) 0 ++ id
    ++ (List.replicate (5 - piv.length) 0 ++ piv))

/-- C33: the nonce is that of RFC 8613 section 5.2. -/
theorem nonce_is_rfc (id piv civ : List UInt8) (hi : id.length ≤ 7) (hp : piv.length ≤ 5)
    (hc : civ.length = 13) :
    nonce id piv civ = .ok (List.zipWith (· ^^^ ·) (Spec.base id piv) civ) := by
  have w1 : writeChk (List.replicate 13 (0 : UInt8)) (13 - piv.length) piv
      = .ok (List.replicate (13 - piv.length) 0 ++ piv) := by
    rw [writeChk, if_pos (by simp; omega), writeAt]
    congr 1
    rw [List.take_replicate, List.drop_of_length_le (by simp; omega), List.append_nil]
    congr 2
    omega
  have base : (List.replicate (8 - id.length) (0 : UInt8) ++ id
      ++ (List.replicate (5 - piv.length) 0 ++ piv)).set 0 (UInt8.ofNat id.length)
      = Spec.base id piv := by
    have : 8 - id.length = (7 - id.length) + 1 := by omega
    rw [this, List.replicate_succ]
    rfl
  have w2 : putId (List.replicate (13 - piv.length) 0 ++ piv) id
      = .ok (List.replicate (8 - id.length) (0 : UInt8) ++ id
        ++ (List.replicate (5 - piv.length) 0 ++ piv)) := by
    have sp : List.replicate (13 - piv.length) (0 : UInt8)
        = List.replicate (8 - id.length) 0 ++ (List.replicate id.length 0
          ++ List.replicate (5 - piv.length) 0) := by
      rw [List.replicate_append_replicate, List.replicate_append_replicate]
      congr 1; omega
    rw [putId, nonceLen]
    by_cases h0 : id.length > 0
    · rw [if_pos h0, if_neg (by omega), writeChk, if_pos (by simp; omega), writeAt]
      congr 1
      rw [sp]
      have e1 : 13 - 5 - id.length = 8 - id.length := by omega
      rw [e1]
      congr 1
      · congr 1
        rw [List.append_assoc, List.take_left' (by simp)]
      · rw [List.append_assoc, List.append_assoc, ← List.append_assoc (List.replicate (8 - id.length) 0),
          List.drop_left' (by simp)]
    · have : id = [] := by
        apply List.eq_nil_of_length_eq_zero; omega
      subst this
      rw [if_neg h0, sp]
      simp
  unfold nonce
  simp only [nonceLen, show ¬ piv.length > 13 by omega, if_false, w1, Out.ok_bind]
  rw [w2]
  simp only [Out.ok_bind]
  rw [base]
  exact if_neg (by omega)

theorem zipWith_xor_cancel (a b c : List UInt8) (ha : a.length = c.length) (hb : b.length = c.length)
    (h : List.zipWith (· ^^^ ·) a c = List.zipWith (· ^^^ ·) b c) : a = b := by
  induction c generalizing a b with
  | nil =>
    rw [List.eq_nil_of_length_eq_zero ha, List.eq_nil_of_length_eq_zero hb]
  | cons x c ih =>
    cases a with
    | nil => simp at ha
    | cons y a =>
      cases b with
      | nil => simp at hb
      | cons z b =>
        simp only [List.zipWith_cons_cons, List.cons.injEq] at h
        rw [ih a b (by simpa using ha) (by simpa using hb) h.2]
        have : y = z := by
          have := congrArg (· ^^^ x) h.1
          simpa [UInt8.xor_assoc] using this
        rw [this]

theorem beVal_inj (a b : List UInt8) (hl : a.length = b.length) (h : beVal a = beVal b) : a = b := by
  induction a generalizing b with
  | nil => rw [List.eq_nil_of_length_eq_zero hl.symm]
  | cons x a ih =>
    cases b with
    | nil => simp at hl
    | cons y b =>
      have hl : a.length = b.length := by simpa using hl
      rw [beVal, beVal, hl] at h
      have h1 := beVal_lt a
      have h2 := beVal_lt b
      rw [hl] at h1
      have e : x.toNat = y.toNat := by
        have d1 : (x.toNat * 256 ^ b.length + beVal a) / 256 ^ b.length = x.toNat := by
          rw [Nat.mul_comm, Nat.mul_add_div (Nat.pow_pos (by decide)), Nat.div_eq_of_lt h1, Nat.add_zero]
        have d2 : (y.toNat * 256 ^ b.length + beVal b) / 256 ^ b.length = y.toNat := by
          rw [Nat.mul_comm, Nat.mul_add_div (Nat.pow_pos (by decide)), Nat.div_eq_of_lt h2, Nat.add_zero]
        rw [← d1, h, d2]
      rw [e] at h
      rw [UInt8.toNat_inj.mp e, ih b hl (by omega)]

/-- C33: with the same common IV two nonces are equal exactly if the ids are the
same and the partial IVs have the same value. -/
theorem nonce_injective (id₁ id₂ piv₁ piv₂ civ : List UInt8) (h1 : id₁.length ≤ 7)
    (h2 : id₂.length ≤ 7) (p1 : piv₁.length ≤ 5) (p2 : piv₂.length ≤ 5) (hc : civ.length = 13) :
    nonce id₁ piv₁ civ = nonce id₂ piv₂ civ ↔ id₁ = id₂ ∧ beVal piv₁ = beVal piv₂ := by
  have bl : ∀ (id piv : List UInt8), id.length ≤ 7 → piv.length ≤ 5 →
      (Spec.base id piv).length = civ.length := by
    intro id piv h h'
    simp [Spec.base, hc]; omega
  rw [nonce_is_rfc _ _ _ h1 p1 hc, nonce_is_rfc _ _ _ h2 p2 hc]
  constructor
  · intro h
    have h := zipWith_xor_cancel _ _ _ (bl _ _ h1 p1) (bl _ _ h2 p2) (Out.ok.inj h)
    rw [Spec.base, Spec.base, List.cons.injEq] at h
    obtain ⟨hlen, hrest⟩ := h
    have hlen : id₁.length = id₂.length := by
      have := congrArg UInt8.toNat hlen
      rwa [toNat_ofNat_lt _ (by omega), toNat_ofNat_lt _ (by omega)] at this
    obtain ⟨e1, e2⟩ := List.append_inj hrest (by simp; omega)
    refine ⟨?_, ?_⟩
    · exact (List.append_inj e1 (by simp; omega)).2
    · rw [← beVal_zeros (5 - piv₁.length), e2, beVal_zeros]
  · rintro ⟨rfl, hv⟩
    have : List.replicate (5 - piv₁.length) 0 ++ piv₁ = List.replicate (5 - piv₂.length) 0 ++ piv₂ := by
      apply beVal_inj
      · simp; omega
      · rw [beVal_zeros, beVal_zeros, hv]
    rw [Spec.base, Spec.base, this]

/-- C33 with C32: the nonces of two messages protected with different sequence
numbers below 2^40 differ, whoever sent them. -/
theorem nonces_of_numbers (id₁ id₂ civ : List UInt8) (n m : Nat) (h1 : id₁.length ≤ 7)
    (h2 : id₂.length ≤ 7) (hn : n < 2 ^ 40) (hm : m < 2 ^ 40) (hc : civ.length = 13) :
    nonce id₁ (storePiv (BitVec.ofNat 64 n)) civ = nonce id₂ (storePiv (BitVec.ofNat 64 m)) civ
      ↔ id₁ = id₂ ∧ n = m := by
  rw [nonce_injective _ _ _ _ _ h1 h2 (storePiv_length _) (storePiv_length _) hc,
    (piv_shortest n hn).1, (piv_shortest m hm).1]

example : nonce [0x01] [0x14] [0x46, 0x22, 0xd4, 0xdd, 0x6d, 0x94, 0x41, 0x68, 0xee, 0xfb, 0x54, 0x98, 0x7c]
    = .ok [0x47, 0x22, 0xd4, 0xdd, 0x6d, 0x94, 0x41, 0x69, 0xee, 0xfb, 0x54, 0x98, 0x68] := by decide
example : nonce [] [0x14] [0x46, 0x22, 0xd4, 0xdd, 0x6d, 0x94, 0x41, 0x68, 0xee, 0xfb, 0x54, 0x98, 0x7c]
    = .ok [0x46, 0x22, 0xd4, 0xdd, 0x6d, 0x94, 0x41, 0x68, 0xee, 0xfb, 0x54, 0x98, 0x68] := by decide

/-- Limit of C33: with partial IVs of six bytes the id covers the first byte, so
that different partial IVs would give the same nonce. -/
theorem nonce_long_piv_false (civ : List UInt8) :
    nonce [7] [1, 0, 0, 0, 0, 0] civ = nonce [7] [2, 0, 0, 0, 0, 0] civ := rfl

/-! ### C36: the OSCORE option -/

/-- The layout of an OSCORE option value (RFC 8613 section 6.1): flag byte,
partial IV, kid context with its length, kid; read from the flag byte. -/
structure Spec.Layout (flags : UInt8) (piv kidCtx kid value : List UInt8) : Prop where
  pivLen : piv.length = flags.toNat % 8
  bytes : value = flags :: (piv
    ++ (if flags.toNat / 16 % 2 = 1 then UInt8.ofNat kidCtx.length :: kidCtx else []) ++ kid)
  noCtx : flags.toNat / 16 % 2 = 0 → kidCtx = []

theorem flag_bits (f : UInt8) :
    (f &&& 0x07).toNat = f.toNat % 8 ∧ (f &&& 0x10 ≠ 0 ↔ f.toNat / 16 % 2 = 1)
      ∧ (f &&& 0x08 ≠ 0 ↔ f.toNat / 8 % 2 = 1) := by
  revert f
  apply forall_u8
  decide +kernel

theorem flags_request (n : Nat) (hn : n ≤ 5) :
    (UInt8.ofNat n ||| ((1 : UInt8) <<< 3)).toNat = n + 8 ∧
    (UInt8.ofNat n ||| ((1 : UInt8) <<< 3) ||| ((1 : UInt8) <<< 4)).toNat = n + 24 ∧
    (UInt8.ofNat n ||| ((1 : UInt8) <<< 4)).toNat = n + 16 ∧ (UInt8.ofNat n).toNat = n := by
  have : ∀ n : Fin 6, (UInt8.ofNat n ||| ((1 : UInt8) <<< 3)).toNat = n + 8 ∧
    (UInt8.ofNat n ||| ((1 : UInt8) <<< 3) ||| ((1 : UInt8) <<< 4)).toNat = n + 24 ∧
    (UInt8.ofNat n ||| ((1 : UInt8) <<< 4)).toNat = n + 16 ∧ (UInt8.ofNat n).toNat = n := by decide
  exact this ⟨n, by omega⟩

theorem copyIn_append (a r : List UInt8) (cap : Nat) (h : a.length ≤ cap) :
    copyIn (a ++ r) a.length cap = .ok (a, r) := by
  rw [copyIn, if_neg (by omega), if_neg (by simp)]
  simp

/-- C36: an option of the layout of RFC 8613 with a partial IV of at most 5
bytes, a kid context of at most 16 bytes and a kid of at most 7 bytes is parsed
to these parts, whatever the packet contained before. -/
theorem parse_layout (p : Pkt) (flags : UInt8) (piv kidCtx kid value : List UInt8)
    (h : Spec.Layout flags piv kidCtx kid value) (hp : piv.length ≤ 5) (hc : kidCtx.length ≤ 16)
    (hk : kid.length ≤ 7) (hk0 : flags.toNat / 8 % 2 = 0 → kid = []) :
    parse p value = .ok (some ⟨flags, piv, kidCtx, kid⟩) := by
  obtain ⟨b1, b2, b3⟩ := flag_bits flags
  have s1 : ∀ r : List UInt8, takePiv piv.length (piv ++ r) = .ok (piv, r) := by
    intro r
    rw [takePiv]
    by_cases h0 : piv.length > 0
    · rw [if_pos h0]; exact copyIn_append _ _ _ hp
    · have : piv = [] := List.eq_nil_of_length_eq_zero (by omega)
      subst this; rfl
  have s2 : finish flags piv kidCtx kid = some ⟨flags, piv, kidCtx, kid⟩ := by
    rw [finish]
    by_cases hf : flags &&& 0x08 ≠ 0
    · rw [if_pos hf]; exact if_neg (show ¬ kid.length > 7 by omega)
    · rw [if_neg hf, hk0]
      have := mt b3.mpr hf
      omega
  rw [h.bytes, parse, b1, ← h.pivLen, List.append_assoc, s1, Out.bind, parseCtx.eq_def]
  by_cases hx : flags.toNat / 16 % 2 = 1
  · rw [if_pos (b2.mpr hx), if_pos hx]
    simp only [List.cons_append]
    rw [toNat_ofNat_lt _ (by omega), copyIn_append _ _ _ (show kidCtx.length ≤ idCtxLen from hc), Out.bind, s2]
    exact if_neg (show ¬ kidCtx.length > 16 by omega)
  · rw [if_neg (mt b2.mp hx), if_neg hx]
    have : kidCtx = [] := h.noCtx (by omega)
    subst this
    rw [← s2]; rfl

theorem ite_pos_self (l : List UInt8) : (if l.length > 0 then l else []) = l := by
  split
  · rfl
  · exact (List.eq_nil_of_length_eq_zero (by omega)).symm

theorem optValue_layout (p : Pkt) (hf : p.flags ≠ 0) (hp : p.piv.length = p.flags.toNat % 8)
    (hc : p.flags.toNat / 16 % 2 = 1 ↔ p.kidCtx.length > 0) :
    Spec.Layout p.flags p.piv p.kidCtx p.kid (optValue p) := by
  refine ⟨hp, ?_, ?_⟩
  · rw [optValue, if_pos hf, ite_pos_self, ite_pos_self]
    by_cases h : p.kidCtx.length > 0
    · rw [if_pos h, if_pos (hc.mpr h)]
    · rw [if_neg h, if_neg (mt hc.mp h)]
  · intro h
    apply List.eq_nil_of_length_eq_zero
    have := mt hc.mpr (show ¬ _ by omega)
    omega

/-- C36: whatever is set as OSCORE header of a request and written by the
serializer is parsed back, into any packet. -/
theorem option_roundtrip (q : Pkt) (piv kid kidCtx : List UInt8) (p : Pkt)
    (h : setHeader {} true piv kid kidCtx = .ok p) :
    p.piv = piv ∧ p.kid = kid ∧ p.kidCtx = kidCtx ∧ parse q (optValue p) = .ok (some p) := by
  unfold setHeader at h
  split at h
  · cases h
  next hb =>
  simp only [pivLen, ctxIdLen, idCtxLen, not_or] at hb
  obtain ⟨hp, hk, hc⟩ := hb
  have hp : piv.length ≤ 5 := by omega
  obtain ⟨f1, f2, f3, f4⟩ := flags_request piv.length hp
  simp only [if_true, ite_pos_self] at h
  cases h
  refine ⟨rfl, rfl, rfl, ?_⟩
  generalize hF : (if kidCtx.length > 0 then
      UInt8.ofNat piv.length ||| ((1 : UInt8) <<< 3) ||| ((1 : UInt8) <<< 4)
      else UInt8.ofNat piv.length ||| ((1 : UInt8) <<< 3)) = F
  have hv : F.toNat = piv.length + (if kidCtx.length > 0 then 24 else 8) := by
    rw [← hF]; split
    · exact f2
    · exact f1
  refine parse_layout q _ _ _ _ _ (optValue_layout ⟨F, piv, kidCtx, kid⟩ ?_ ?_ ?_) hp (by omega) (by omega) ?_
  · intro h
    have := congrArg UInt8.toNat h
    rw [show (⟨F, piv, kidCtx, kid⟩ : Pkt).flags.toNat = F.toNat from rfl, hv] at this
    split at this <;> simp at this
  · show piv.length = F.toNat % 8
    rw [hv]; split <;> omega
  · show F.toNat / 16 % 2 = 1 ↔ kidCtx.length > 0
    rw [hv]; split <;> omega
  · rw [hv]; intro h; split at h <;> omega

/-- C36: the same for a response, which the engine sends with a partial IV and
without a kid. -/
theorem option_roundtrip_response (q : Pkt) (piv kidCtx : List UInt8) (p : Pkt) (hpiv : piv ≠ [])
    (h : setHeader {} false piv [] kidCtx = .ok p) :
    p.piv = piv ∧ p.kid = [] ∧ p.kidCtx = kidCtx ∧ parse q (optValue p) = .ok (some p) := by
  unfold setHeader at h
  split at h
  · cases h
  next hb =>
  simp only [pivLen, ctxIdLen, idCtxLen, not_or] at hb
  obtain ⟨hp, hk, hc⟩ := hb
  have hp : piv.length ≤ 5 := by omega
  have hp0 : 0 < piv.length := List.length_pos_iff.mpr hpiv
  obtain ⟨f1, f2, f3, f4⟩ := flags_request piv.length hp
  simp only [if_false, ite_pos_self, Bool.false_eq_true] at h
  cases h
  refine ⟨rfl, rfl, rfl, ?_⟩
  generalize hF : (if kidCtx.length > 0 then UInt8.ofNat piv.length ||| ((1 : UInt8) <<< 4)
      else UInt8.ofNat piv.length) = F
  have hv : F.toNat = piv.length + (if kidCtx.length > 0 then 16 else 0) := by
    rw [← hF]; split
    · exact f3
    · exact f4
  refine parse_layout q _ _ _ _ _ (optValue_layout ⟨F, piv, kidCtx, []⟩ ?_ ?_ ?_) hp (by omega) (by decide)
    (fun _ => rfl)
  · intro h
    have := congrArg UInt8.toNat h
    rw [show (⟨F, piv, kidCtx, []⟩ : Pkt).flags.toNat = F.toNat from rfl, hv] at this
    split at this
    · simp at this
    · simp at this; exact hpiv this
  · show piv.length = F.toNat % 8
    rw [hv]; split <;> omega
  · show F.toNat / 16 % 2 = 1 ↔ kidCtx.length > 0
    rw [hv]; split <;> omega

/-- C36: the length in the option header is the number of bytes written, and
the option read back as an option is number 9 with exactly that value. -/
theorem option_header (pre post : List UInt8) (current : Nat) (hcur : current ≤ 9) (p : Pkt)
    (hf : p.flags ≠ 0) (hp : p.piv.length ≤ 5) (hc : p.kidCtx.length ≤ 16) (hk : p.kid.length ≤ 7) :
    (serialize current p).1 = (serialize current p).2.length ∧
    ∃ pos, readHeader (pre ++ ((serialize current p).2 ++ post)) pre.length
        = .ok (9 - current, (optValue p).length, pos) ∧
      slice (pre ++ ((serialize current p).2 ++ post)) pos (optValue p).length = optValue p := by
  have hl : optLength p = (optValue p).length := by
    have hpos : p.flags > 0 := by
      apply UInt8.lt_iff_toNat_lt.mpr
      apply Nat.pos_of_ne_zero
      intro h; exact hf (UInt8.toNat_inj.mp h)
    rw [optLength, optValue, if_pos hf, if_pos hpos, ite_pos_self, ite_pos_self]
    by_cases h : p.kidCtx.length > 0
    · rw [if_pos h, if_pos h]; simp; omega
    · rw [if_neg h, if_neg h]
      have : p.kidCtx = [] := List.eq_nil_of_length_eq_zero (by omega)
      simp [this]
  have hle : optLength p ≤ 65804 := by
    rw [optLength]; split <;> split <;> omega
  obtain ⟨r1, r2, -⟩ := header_roundtrip pre (optValue p ++ post) (9 - current) (optLength p) (by omega) hle
  rw [serialize, optDelta_le 9 current hcur (by decide)]
  refine ⟨by rw [List.length_append, r2, hl]; omega, pre.length + (setOptionHeader (9 - current) (optLength p)).1, ?_, ?_⟩
  · rw [List.append_assoc, r1, hl]
  · rw [← r2, List.append_assoc, ← List.append_assoc pre, slice, List.drop_left' (by simp), List.take_left]

/-- Which options the parser reads without leaving them or its buffers: the
partial IV has at most 5 bytes and is there, and if there is a kid context its
length byte is there, and is above 16 or that many bytes follow. -/
def Spec.Fits : List UInt8 → Prop
  | [] => True
  | f :: rest => f.toNat % 8 ≤ 5 ∧ f.toNat % 8 ≤ rest.length ∧
      (f.toNat / 16 % 2 = 1 → ∃ s, rest[f.toNat % 8]? = some s ∧
        (s.toNat ≤ 16 → f.toNat % 8 + 1 + s.toNat ≤ rest.length))

/-- C36: exactly these options are parsed without undefined behaviour. -/
theorem parse_defined_iff (p : Pkt) (opt : List UInt8) : parse p opt ≠ .ub ↔ Spec.Fits opt := by
  cases opt with
  | nil => simp [parse, Spec.Fits]
  | cons f rest =>
    obtain ⟨b1, b2, b3⟩ := flag_bits f
    have s1 : takePiv (f.toNat % 8) rest
        = if f.toNat % 8 ≤ 5 ∧ f.toNat % 8 ≤ rest.length then
            .ok (rest.take (f.toNat % 8), rest.drop (f.toNat % 8)) else .ub := by
      rw [takePiv]
      by_cases h0 : f.toNat % 8 > 0
      · rw [if_pos h0, copyIn, pivLen]
        by_cases h5 : f.toNat % 8 > 5
        · rw [if_pos h5, if_neg (by omega)]
        · rw [if_neg h5]
          by_cases hl : f.toNat % 8 > rest.length
          · rw [if_pos hl, if_neg (by omega)]
          · rw [if_neg hl, if_pos (by omega)]
      · rw [if_neg h0, if_pos (by omega), show f.toNat % 8 = 0 by omega]; rfl
    rw [parse, b1, s1, Spec.Fits]
    by_cases hc : f.toNat % 8 ≤ 5 ∧ f.toNat % 8 ≤ rest.length
    swap
    · rw [if_neg hc, Out.bind]
      constructor
      · intro h; exact absurd rfl h
      · rintro ⟨a, b, -⟩; exact absurd ⟨a, b⟩ hc
    rw [if_pos hc, Out.bind, parseCtx.eq_def]
    by_cases hx : f.toNat / 16 % 2 = 1
    · rw [if_pos (b2.mpr hx)]
      have hg : rest[f.toNat % 8]? = (rest.drop (f.toNat % 8))[0]? := by simp
      have hlen : (rest.drop (f.toNat % 8)).length = rest.length - f.toNat % 8 := by simp
      rw [hg]
      cases hr : rest.drop (f.toNat % 8) with
      | nil => simp [hx]
      | cons s r =>
        rw [hr] at hlen
        simp only [List.length_cons] at hlen
        simp only [List.getElem?_cons_zero]
        by_cases h16 : s.toNat > idCtxLen
        · rw [if_pos h16]
          simp only [idCtxLen] at h16
          constructor
          · intro _
            exact ⟨hc.1, hc.2, fun _ => ⟨s, rfl, fun h => by omega⟩⟩
          · intro _ h; cases h
        · rw [if_neg h16, copyIn, if_neg h16]
          simp only [idCtxLen] at h16
          by_cases hl : s.toNat > r.length
          · rw [if_pos hl, Out.bind]
            constructor
            · intro h; exact absurd rfl h
            · rintro ⟨-, -, h⟩
              obtain ⟨s', e, h'⟩ := h hx
              cases e
              have := h' (by omega)
              omega
          · rw [if_neg hl, Out.bind]
            constructor
            · intro _
              exact ⟨hc.1, hc.2, fun _ => ⟨s, rfl, fun h => by omega⟩⟩
            · intro _ h; cases h
    · rw [if_neg (mt b2.mp hx)]
      constructor
      · intro _; exact ⟨hc.1, hc.2, fun h => absurd h hx⟩
      · intro _ h; cases h

example : setHeader {} true [0x14] [0x01, 0x02] [] = .ok ⟨0x09, [0x14], [], [0x01, 0x02]⟩ := by decide
example : optValue ⟨0x09, [0x14], [], [0x01, 0x02]⟩ = [0x09, 0x14, 0x01, 0x02] := by decide
example : setHeader {} true [] [] [0x37, 0xcb] = .ok ⟨0x18, [], [0x37, 0xcb], []⟩ := by decide
example : setHeader {} false [0x05] [] [] = .ok ⟨0x01, [0x05], [], []⟩ := by decide
example : Spec.Fits [0x19, 0x05, 0x02, 0x37, 0xcb, 0x01] :=
  ⟨by decide, by decide, fun _ => ⟨2, rfl, by decide⟩⟩
example : Spec.Layout 0x19 [5] [0x37, 0xcb] [1] [0x19, 0x05, 0x02, 0x37, 0xcb, 0x01] :=
  ⟨by decide, by decide, by decide⟩
example : serialize 3 ⟨0x09, [0x14], [], [0x01]⟩ = (4, [0x63, 0x09, 0x14, 0x01]) := by decide

/-- C36 fails: a flag byte announcing a partial IV of 6 bytes makes the parser
write 6 bytes into its array of 5. -/
theorem piv_overflow_false (p : Pkt) : parse p [0x06, 1, 2, 3, 4, 5, 6] = .ub := rfl

/-- C36 fails: a partial IV announced and not there is read from behind the
option. -/
theorem truncated_piv_false (p : Pkt) : parse p [0x03, 1] = .ub := rfl

/-- C36 fails: the same for the kid context and for its length byte. -/
theorem truncated_ctx_false (p : Pkt) : parse p [0x10] = .ub ∧ parse p [0x10, 4, 1] = .ub := ⟨rfl, rfl⟩

/-- Observation on C36: the reserved bits of the flag byte, for which RFC 8613
asks to refuse the message, are accepted, and bytes after the announced parts
are ignored if there is no kid. -/
theorem reserved_bits_accepted (p : Pkt) : parse p [0xE1, 5, 9, 9] = .ok (some ⟨0xE1, [5], [], []⟩) := rfl

/-- Limit of the round trip: the kid of a response is written, but not announced
in the flag byte, and lost. -/
theorem response_kid_lost_false (q : Pkt) : ∃ p, setHeader {} false [5] [1] [] = .ok p ∧ p.kid = [1] ∧
    parse q (optValue p) = .ok (some ⟨1, [5], [], []⟩) := ⟨_, rfl, rfl, rfl⟩

/-! ### C53: recognition of OSCORE messages -/

theorem optScan_seq (opts : List (Nat × List UInt8)) (prev : Nat) (bs : List UInt8)
    (h : OptSeq prev opts bs) (hn : ∀ o ∈ opts, o.1 < 2 ^ 32)
    (pre post : List UInt8) (hpost : post = [] ∨ ∃ b t, post = b :: t ∧ b &&& 0xF0 = 0xF0)
    (fuel : Nat) (hfuel : bs.length < fuel) :
    optScan (pre ++ (bs ++ post)) fuel pre.length prev = .ok (decide (9 ∈ opts.map Prod.fst)) := by
  induction h generalizing pre fuel with
  | nil prev =>
    obtain ⟨fuel, rfl⟩ : ∃ k, fuel = k + 1 := ⟨fuel - 1, by simp at hfuel; omega⟩
    rw [optScan]
    rcases hpost with rfl | ⟨b, t, rfl, hb⟩
    · simp
    · have hg : Out.get (pre ++ ([] ++ b :: t)) pre.length = .ok b := get_eq_ok _ _ _ (by simp)
      rw [hg, if_pos (by simp)]
      simp [hb]
  | cons prev num v hdr rest bs hle hw hr ih =>
    obtain ⟨fuel, rfl⟩ : ∃ k, fuel = k + 1 := ⟨fuel - 1, by omega⟩
    have hu := wire_unique _ _ _ hw
    have hd := wire_le _ _ _ hw
    obtain ⟨r1, r2, b, hb, hbF⟩ := header_roundtrip pre (v ++ bs ++ post) (num - prev) v.length hd.1 hd.2
    have rr := rfc_header_read pre (v ++ bs ++ post) hdr _ _ hw
    have hm : pre ++ (hdr ++ (v ++ bs) ++ post) = pre ++ (hdr ++ (v ++ bs ++ post)) := by simp
    rw [← hu] at hb
    cases hdr with
    | nil => cases hb
    | cons b' ht =>
      cases hb
      have hg : Out.get (pre ++ (b :: ht ++ (v ++ bs ++ post))) pre.length = .ok b :=
        get_eq_ok _ _ _ (by simp)
      rw [optScan, hm, if_pos (by simp), hg]
      simp only [Out.ok_bind]
      rw [if_neg hbF, rr]
      simp only [Out.ok_bind]
      have hnum : (prev + (num - prev)) % 2 ^ 32 = num := by
        have := hn (num, v) (by simp)
        simp only at this
        omega
      rw [hnum]
      by_cases h9 : num = 9
      · rw [if_pos h9]; simp [h9]
      · rw [if_neg h9]
        have hi := ih (fun o ho => hn o (by simp [ho])) (pre ++ (b :: ht) ++ v) fuel
          (by simp at hfuel ⊢; omega)
        have e1 : pre ++ (b :: ht) ++ v ++ (bs ++ post) = pre ++ (b :: ht ++ (v ++ bs ++ post)) := by simp
        have e2 : (pre ++ (b :: ht) ++ v).length = pre.length + (b :: ht).length + v.length := by
          simp; omega
        rw [e1, e2] at hi
        rw [hi]
        have : (9 : Nat) ≠ num := fun h => h9 h.symm
        simp [this]

/-- C53: a datagram with a header of 4 bytes, a token and a sequence of options,
followed by nothing or by the payload marker and a payload, is taken for an
OSCORE message exactly if it has an option of number 9, and recognising it does
not read outside of the datagram. -/
theorem is_oscore_iff (b0 b1 b2 b3 : UInt8) (token bs post : List UInt8)
    (opts : List (Nat × List UInt8)) (htk : token.length = (b0 &&& 0x0F).toNat)
    (h : OptSeq 0 opts bs) (hn : ∀ o ∈ opts, o.1 < 2 ^ 32)
    (hpost : post = [] ∨ ∃ t, post = 0xFF :: t) :
    isOscore ([b0, b1, b2, b3] ++ token ++ (bs ++ post)) = .ok (decide (9 ∈ opts.map Prod.fst)) := by
  rw [isOscore]
  have hg : Out.get ([b0, b1, b2, b3] ++ token ++ (bs ++ post)) 0 = .ok b0 := rfl
  rw [hg]
  simp only [Out.ok_bind]
  have := optScan_seq opts 0 bs h hn ([b0, b1, b2, b3] ++ token) post
    (by
      rcases hpost with h | ⟨t, h⟩
      · exact .inl h
      · exact .inr ⟨_, _, h, by decide⟩)
    (([b0, b1, b2, b3] ++ token ++ (bs ++ post)).length + 1) (by simp; omega)
  rw [← this, ← htk]
  congr 1
  simp; omega

example : isOscore [0x41, 0x02, 0x00, 0x01, 0x77, 0x92, 0x09, 0x14, 0xFF, 0x90] = .ok true := by decide
example : isOscore [0x41, 0x02, 0x00, 0x01, 0x77, 0xB2, 0x09, 0x14, 0xFF, 0x90] = .ok false := by decide
example : OptSeq 0 [(9, [0x09, 0x14])] [0x92, 0x09, 0x14] :=
  OptSeq.cons 0 9 [0x09, 0x14] [0x92] [] [] (by decide)
    ((header_is_rfc 9 2 (by decide) (by decide) _).2 (by decide)) (OptSeq.nil 9)

/-- C53 fails for other datagrams: the extended delta of an option at the end is
read from behind the datagram, and an empty one is not even looked at. -/
theorem truncated_scan_false : isOscore [0x40, 0x02, 0x00, 0x01, 0xD0] = .ub ∧ isOscore [] = .ub := by
  decide

end Verif.Oscore
