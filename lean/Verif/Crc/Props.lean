import Verif.Crc.Model
/-! Property theorems for `util/oc_crc.c` (C05). -/
namespace Verif.Crc

/-- Specification: the bits of a message in transmission order (least significant
bit of each byte first). -/
def msgBits (l : List UInt8) : List Bool :=
  l.flatMap fun b => (List.range 8).map fun i => b.toNat.testBit i

/-! ### The shift step is linear and injective -/

theorem and_one (c : BitVec 64) : (c &&& 1#64 = 1#64) ↔ c.getLsbD 0 = true := by
  constructor
  · intro h
    have := congrArg (fun v => v.getLsbD 0) h
    simpa using this
  · intro h
    apply BitVec.eq_of_getLsbD_eq
    intro i hi
    cases i with
    | zero => simp [h]
    | succ i => simp [BitVec.getLsbD_one]

theorem shiftStep_eq (c : BitVec 64) :
    shiftStep c = (c >>> 1) ^^^ (if c.getLsbD 0 then poly else 0#64) := by
  unfold shiftStep
  by_cases h : c.getLsbD 0 = true
  · rw [if_pos ((and_one c).mpr h), if_pos h]
  · rw [if_neg (fun h' => h ((and_one c).mp h')), if_neg h]; simp

theorem shiftStep_xor (a b : BitVec 64) : shiftStep (a ^^^ b) = shiftStep a ^^^ shiftStep b := by
  simp only [shiftStep_eq, BitVec.ushiftRight_xor_distrib, BitVec.getLsbD_xor]
  generalize a >>> 1 = x
  generalize b >>> 1 = y
  have hpp : poly ^^^ poly = 0#64 := BitVec.xor_self
  cases a.getLsbD 0 <;> cases b.getLsbD 0 <;>
    simp only [Bool.xor_false, Bool.xor_true, Bool.not_false, Bool.not_true, Bool.false_eq_true,
      ↓reduceIte, BitVec.xor_zero]
  · ac_rfl
  · ac_rfl
  · have : x ^^^ poly ^^^ (y ^^^ poly) = x ^^^ y ^^^ (poly ^^^ poly) := by ac_rfl
    rw [this, hpp, BitVec.xor_zero]

theorem shiftStep_zero : shiftStep 0#64 = 0#64 := by decide

theorem shiftStep_eq_zero (a : BitVec 64) (h : shiftStep a = 0#64) : a = 0#64 := by
  rw [shiftStep_eq] at h
  have h0 : a.getLsbD 0 = false := by
    cases h0 : a.getLsbD 0 with
    | false => rfl
    | true =>
      have := congrArg (fun v => v.getLsbD 63) h
      simp [h0, poly] at this
  rw [h0] at h
  simp only [Bool.false_eq_true, ↓reduceIte, BitVec.xor_zero] at h
  apply BitVec.eq_of_getLsbD_eq
  intro i hi
  cases i with
  | zero => simpa using h0
  | succ i =>
    have := congrArg (fun v => v.getLsbD i) h
    simpa [Nat.add_comm] using this

theorem xor_eq_zero {a b : BitVec 64} (h : a ^^^ b = 0#64) : a = b := by
  have := congrArg (· ^^^ b) h
  simpa [BitVec.xor_assoc] using this

theorem shiftStep_inj (a b : BitVec 64) (h : shiftStep a = shiftStep b) : a = b := by
  apply xor_eq_zero
  apply shiftStep_eq_zero
  rw [shiftStep_xor, h, BitVec.xor_self]

/-! ### Bit serial form -/

/-- The single bit as a register value. -/
def bit (b : Bool) : BitVec 64 := if b then 1#64 else 0#64

/-- Bit serial CRC. -/
def bitFold (c : BitVec 64) (l : List Bool) : BitVec 64 :=
  l.foldl (fun c b => shiftStep (c ^^^ bit b)) c

/-- `n` shift steps. -/
def steps : Nat → BitVec 64 → BitVec 64
  | 0, c => c
  | n + 1, c => steps n (shiftStep c)

/-- A bit sequence as a number, first bit least significant. -/
def val : List Bool → BitVec 64
  | [] => 0#64
  | b :: l => bit b ^^^ (val l <<< 1)

theorem bit_getLsbD (b : Bool) (i : Nat) : (bit b).getLsbD i = (b && decide (i = 0)) := by
  cases b <;> simp [bit, BitVec.getLsbD_one]

theorem val_getLsbD : ∀ (l : List Bool) (i : Nat), i < 64 → (val l).getLsbD i = (l[i]?).getD false
  | [], i, _ => by simp [val]
  | b :: l, 0, _ => by
      rw [val, BitVec.getLsbD_xor, bit_getLsbD, BitVec.getLsbD_shiftLeft]; simp
  | b :: l, i + 1, h => by
      have ih := val_getLsbD l i (by omega)
      rw [val, BitVec.getLsbD_xor, bit_getLsbD, BitVec.getLsbD_shiftLeft]
      simp [ih, h]

theorem shiftStep_shl (l : List Bool) (h : l.length ≤ 63) : shiftStep (val l <<< 1) = val l := by
  rw [shiftStep_eq]
  have : (val l <<< 1).getLsbD 0 = false := by simp
  rw [this]
  simp only [Bool.false_eq_true, ↓reduceIte, BitVec.xor_zero]
  apply BitVec.eq_of_getLsbD_eq
  intro i hi
  simp only [BitVec.getLsbD_ushiftRight, BitVec.getLsbD_shiftLeft]
  by_cases h63 : i = 63
  · subst h63
    have := val_getLsbD l 63 (by omega)
    rw [List.getElem?_eq_none (by omega)] at this
    simp at this
    simp [this]
  · have h1 : 1 + i < 64 := by omega
    simp [h1]

theorem bitFold_eq : ∀ (l : List Bool) (c : BitVec 64), l.length ≤ 64 →
    bitFold c l = steps l.length (c ^^^ val l)
  | [], c, _ => by simp [bitFold, steps, val]
  | b :: l, c, h => by
      have ih := bitFold_eq l (shiftStep (c ^^^ bit b)) (by simp at h; omega)
      simp only [bitFold, List.foldl_cons] at ih ⊢
      rw [ih]
      simp only [List.length_cons, steps]
      congr 1
      rw [val, ← BitVec.xor_assoc, shiftStep_xor (c ^^^ bit b),
        shiftStep_shl l (by simp at h; omega)]

theorem steps_inj : ∀ (n : Nat) (a b : BitVec 64), steps n a = steps n b → a = b
  | 0, a, b, h => h
  | n + 1, a, b, h => shiftStep_inj a b (steps_inj n _ _ h)

theorem xor_right_inj {a b c : BitVec 64} (h : a ^^^ c = b ^^^ c) : a = b := by
  have := congrArg (· ^^^ c) h
  simpa [BitVec.xor_assoc] using this

theorem xor_left_inj {a b c : BitVec 64} (h : c ^^^ a = c ^^^ b) : a = b := by
  rw [BitVec.xor_comm c a, BitVec.xor_comm c b] at h
  exact xor_right_inj h

theorem bitFold_inj : ∀ (l : List Bool) (a b : BitVec 64), bitFold a l = bitFold b l → a = b
  | [], a, b, h => h
  | x :: l, a, b, h =>
    xor_right_inj (shiftStep_inj _ _ (bitFold_inj l _ _ h))

theorem val_inj (a b : List Bool) (hl : a.length = b.length) (h64 : a.length ≤ 64)
    (h : val a = val b) : a = b := by
  apply List.ext_getElem hl
  intro i h1 h2
  have ha := val_getLsbD a i (by omega)
  have hb := val_getLsbD b i (by omega)
  rw [h, hb] at ha
  simpa [h1, h2] using ha.symm

/-- A byte as a list of bits. -/
def byteBits (b : UInt8) : List Bool := (List.range 8).map fun i => b.toNat.testBit i

theorem byteBits_val : ∀ b : UInt8, val (byteBits b) = b.toBitVec.setWidth 64 := by
  apply forall_u8; decide +kernel

theorem update_eq (c : BitVec 64) (b : UInt8) : update c b = bitFold c (byteBits b) := by
  rw [bitFold_eq _ _ (by simp [byteBits]), byteBits_val]
  have : (byteBits b).length = 8 := by simp [byteBits]
  rw [this]
  rfl

theorem crc64_eq : ∀ (l : List UInt8) (c : BitVec 64), crc64 c l = bitFold c (msgBits l)
  | [], c => rfl
  | b :: l, c => by
      have ih := crc64_eq l (update c b)
      simp only [crc64, List.foldl_cons] at ih ⊢
      rw [ih, update_eq]
      simp only [msgBits, List.flatMap_cons, bitFold, List.foldl_append]
      rfl

theorem byteBits_inj (a b : UInt8) (h : byteBits a = byteBits b) : a = b := by
  apply UInt8.toNat_inj.mp
  apply Nat.eq_of_testBit_eq
  intro i
  by_cases hi : i < 8
  · have h1 := congrArg (fun l => l[i]?) h
    simpa [byteBits, hi] using h1
  · have ha := a.toNat_lt; have hb := b.toNat_lt
    rw [Nat.testBit_lt_two_pow (Nat.lt_of_lt_of_le ha (Nat.pow_le_pow_right (by omega) (by omega))),
      Nat.testBit_lt_two_pow (Nat.lt_of_lt_of_le hb (Nat.pow_le_pow_right (by omega) (by omega)))]

theorem msgBits_length (l : List UInt8) : (msgBits l).length = 8 * l.length := by
  induction l with
  | nil => rfl
  | cons a l ih =>
    simp only [msgBits, List.flatMap_cons, List.length_append, List.length_map, List.length_range]
      at ih ⊢
    rw [ih, List.length_cons]; omega

theorem msgBits_inj : ∀ a b : List UInt8, a.length = b.length → msgBits a = msgBits b → a = b
  | [], [], _, _ => rfl
  | [], _ :: _, h, _ => by simp at h
  | _ :: _, [], h, _ => by simp at h
  | a :: as, b :: bs, hl, h => by
      simp only [msgBits, List.flatMap_cons] at h
      obtain ⟨h1, h2⟩ := List.append_inj h (by simp)
      rw [byteBits_inj a b h1, msgBits_inj as bs (by simpa using hl) h2]

/-- C05: feeding a message in any division into chunks gives the checksum of the
whole message. -/
theorem crc64_chunks (chunks : List (List UInt8)) (c : BitVec 64) :
    chunks.foldl crc64 c = crc64 c chunks.flatten := by
  induction chunks generalizing c with
  | nil => rfl
  | cons a l ih =>
    rw [List.foldl_cons, ih, List.flatten_cons]
    simp only [crc64, List.foldl_append]

example : [[1, 2], [], [3]].foldl crc64 0#64 = crc64 0#64 [1, 2, 3] := crc64_chunks _ _

/-- C05: two messages of the same length that differ, but only inside a window of
64 consecutive bits, never have the same checksum. -/
theorem crc64_burst (c : BitVec 64) (x y : List UInt8) (p : Nat) (hlen : x.length = y.length)
    (hdiff : ∀ i, i < p ∨ p + 64 ≤ i → (msgBits x)[i]? = (msgBits y)[i]?) (hne : x ≠ y) :
    crc64 c x ≠ crc64 c y := by
  intro h
  apply hne
  apply msgBits_inj x y hlen
  rw [crc64_eq, crc64_eq] at h
  have hbl : (msgBits x).length = (msgBits y).length := by
    rw [msgBits_length, msgBits_length, hlen]
  generalize msgBits x = bx at *
  generalize msgBits y = by' at *
  have hpre : bx.take p = by'.take p := by
    apply List.ext_getElem?
    intro i
    by_cases hi : i < p
    · simp [List.getElem?_take, hi, hdiff i (Or.inl hi)]
    · simp [List.getElem?_take, hi]
  have hsuf : (bx.drop p).drop 64 = (by'.drop p).drop 64 := by
    apply List.ext_getElem?
    intro i
    simp only [List.drop_drop, List.getElem?_drop]
    exact hdiff _ (Or.inr (by omega))
  have sx : bx = bx.take p ++ ((bx.drop p).take 64 ++ (bx.drop p).drop 64) := by
    rw [List.take_append_drop, List.take_append_drop]
  have sy : by' = by'.take p ++ ((by'.drop p).take 64 ++ (by'.drop p).drop 64) := by
    rw [List.take_append_drop, List.take_append_drop]
  have hsplit : ∀ (u v w : List Bool), bitFold c (u ++ (v ++ w))
      = bitFold (bitFold (bitFold c u) v) w := by
    intro u v w; simp [bitFold]
  rw [sx, sy, hsplit, hsplit, ← hpre, ← hsuf] at h
  have h1 := bitFold_inj _ _ _ h
  generalize bitFold c (bx.take p) = s at h1
  rw [bitFold_eq _ _ (by simp; omega), bitFold_eq _ _ (by simp; omega)] at h1
  have hwl : ((bx.drop p).take 64).length = ((by'.drop p).take 64).length := by simp [hbl]
  rw [hwl] at h1
  have h2 := val_inj _ _ hwl (by simp; omega) (xor_left_inj (steps_inj _ _ _ h1))
  rw [sx, sy, ← hpre, ← hsuf, h2]

example : crc64 0#64 [1, 2, 3] ≠ crc64 0#64 [1, 7, 3] := by
  refine crc64_burst 0#64 [1, 2, 3] [1, 7, 3] 8 rfl ?_ (by decide)
  intro i hi
  have : i < 8 ∨ 24 ≤ i := by omega
  rcases this with h | h
  · clear hi; revert i; decide
  · rw [List.getElem?_eq_none (by rw [msgBits_length]; simpa using h),
      List.getElem?_eq_none (by rw [msgBits_length]; simpa using h)]

end Verif.Crc
