import Verif.Common
/-! Decimal texts, the output of `printf` for `%d`, `%u`, `%zu` of a
nonnegative number (C11 §7.21.6.1; not part of /repo). -/
namespace Verif

/-- The digits of `n`, most significant first (structural fuel `f`; `printf`
with `%u`, C11 §7.21.6.1). -/
def decF : Nat → Nat → List UInt8
  | 0, _ => []
  | f + 1, n =>
    if n < 10 then [UInt8.ofNat (48 + n)] else decF f (n / 10) ++ [UInt8.ofNat (48 + n % 10)]

/-- Decimal text of `n` (`printf` with `%u`, C11 §7.21.6.1). -/
def dec (n : Nat) : List UInt8 := decF (n + 1) n

/-- Value of a decimal text (specification). -/
def decVal (l : List UInt8) : Nat := l.foldl (fun a c => 10 * a + (c.toNat - 48)) 0

/-- A decimal digit character. -/
def IsDigit (c : UInt8) : Prop := 48 ≤ c.toNat ∧ c.toNat ≤ 57

theorem digit_toNat {n : Nat} (h : n < 10) : (UInt8.ofNat (48 + n)).toNat = 48 + n := by
  rw [UInt8.toNat_ofNat']; omega

theorem decVal_append (l : List UInt8) (c : UInt8) :
    decVal (l ++ [c]) = 10 * decVal l + (c.toNat - 48) := by
  simp only [decVal, List.foldl_append, List.foldl_cons, List.foldl_nil]

theorem decF_spec : ∀ (f n : Nat), n < f →
    decVal (decF f n) = n ∧ (∀ c ∈ decF f n, IsDigit c) ∧ decF f n ≠ []
  | 0, _, h => by omega
  | f + 1, n, h => by
    rw [decF]
    by_cases h10 : n < 10
    · rw [if_pos h10]
      refine ⟨?_, ?_, by simp⟩
      · have := decVal_append [] (UInt8.ofNat (48 + n))
        rw [List.nil_append, digit_toNat h10] at this
        rw [this]; simp only [decVal, List.foldl_nil]; omega
      · intro c hc
        rw [List.mem_singleton] at hc
        rw [hc, IsDigit, digit_toNat h10]; omega
    · rw [if_neg h10]
      have ⟨i1, i2, _⟩ := decF_spec f (n / 10) (by omega)
      refine ⟨?_, ?_, by simp⟩
      · rw [decVal_append, i1, digit_toNat (Nat.mod_lt n (by omega))]; omega
      · intro c hc
        rcases List.mem_append.1 hc with hc | hc
        · exact i2 c hc
        · rw [List.mem_singleton] at hc
          have := Nat.mod_lt n (show 10 > 0 by omega)
          rw [hc, IsDigit, digit_toNat this]; omega

theorem dec_val (n : Nat) : decVal (dec n) = n := (decF_spec (n + 1) n (by omega)).1
theorem dec_digit (n : Nat) : ∀ c ∈ dec n, IsDigit c := (decF_spec (n + 1) n (by omega)).2.1
theorem dec_ne_nil (n : Nat) : dec n ≠ [] := (decF_spec (n + 1) n (by omega)).2.2

theorem dec_inj {a c : Nat} (h : dec a = dec c) : a = c := by
  rw [← dec_val a, ← dec_val c, h]

theorem decF_length : ∀ (f n k : Nat), n < 10 ^ (k + 1) → (decF f n).length ≤ k + 1
  | 0, _, _, _ => by simp [decF]
  | f + 1, n, k, h => by
    rw [decF]
    by_cases h10 : n < 10
    · rw [if_pos h10]; simp
    · rw [if_neg h10]
      cases k with
      | zero => omega
      | succ k =>
        have := decF_length f (n / 10) k (by rw [Nat.pow_succ] at h; omega)
        simp only [List.length_append, List.length_singleton]; omega

/-- A number with at most `k + 1` decimal digits. -/
theorem dec_length {n k : Nat} (h : n < 10 ^ (k + 1)) : (dec n).length ≤ k + 1 :=
  decF_length _ _ _ h

example : dec 1230 = [49, 50, 51, 48] ∧ dec 0 = [48] := by decide

end Verif
