import Verif.Oscore.Model
import Verif.Coap.Lemmas
import Mathlib.Tactic.IntervalCases

/-! Helper lemmas about byte order, partial IVs and the replay window. -/

namespace Verif.Oscore
open Verif.Coap.Spec Verif.Coap

theorem bswap_bit (w : BitVec 64) (i : Nat) (hi : i < 64) :
    (bswap w).getLsbD i = w.getLsbD (8 * (7 - i / 8) + i % 8) := by
  unfold bswap
  interval_cases i <;> simp

theorem leWord_cons (x : UInt8) (m : List UInt8) :
    leWord (x :: m) = (leWord m <<< 8) ||| x.toBitVec.setWidth 64 := rfl

theorem leWord_bit (m : List UInt8) (i : Nat) (hi : i < 64) :
    (leWord m).getLsbD i = (m[i / 8]?.getD 0).toBitVec.getLsbD (i % 8) := by
  induction m generalizing i with
  | nil => simp [leWord]
  | cons x m ih =>
    rw [leWord_cons]
    by_cases h : i < 8
    · have e1 : i / 8 = 0 := by omega
      have e2 : i % 8 = i := by omega
      simp [e1, e2, hi, h]
    · have e1 : i / 8 = (i - 8) / 8 + 1 := by omega
      have e2 : i % 8 = (i - 8) % 8 := by omega
      rw [BitVec.getLsbD_or, BitVec.getLsbD_shiftLeft, ih (i - 8) (by omega), e1, e2]
      simp only [List.getElem?_cons_succ]
      have hz : (BitVec.setWidth 64 x.toBitVec).getLsbD i = false := by
        rw [BitVec.getLsbD_setWidth, BitVec.getLsbD_of_ge _ _ (by omega)]
        simp
      rw [hz]
      simp [hi, h]

theorem leWord_toNat (m : List UInt8) (h : m.length ≤ 8) : (leWord m).toNat = beVal m.reverse := by
  suffices H : (leWord m).toNat = beVal m.reverse ∧ (leWord m).toNat < 256 ^ m.length from H.1
  induction m with
  | nil => decide
  | cons x m ih =>
    obtain ⟨e, l⟩ := ih (by simp at h; omega)
    rw [leWord_cons, List.reverse_cons, beVal_append]
    have hx := x.toNat_lt
    have hl : 256 ^ m.length ≤ 256 ^ 7 := Nat.pow_le_pow_right (by decide) (by simp at h; omega)
    have hb : (leWord m).toNat * 256 < 2 ^ 64 := by
      have : (leWord m).toNat * 256 < 256 ^ 7 * 256 := Nat.mul_lt_mul_of_pos_right (by omega) (by decide)
      omega
    have e2 : (leWord m <<< 8 ||| x.toBitVec.setWidth 64).toNat = (leWord m).toNat * 256 + x.toNat := by
      rw [BitVec.toNat_or, BitVec.toNat_shiftLeft, Nat.shiftLeft_eq, Nat.mod_eq_of_lt (by simpa using hb)]
      have : (BitVec.setWidth 64 x.toBitVec).toNat = x.toNat := by
        simp
      rw [this]
      have := Nat.two_pow_add_eq_or_of_lt (i := 8) (b := x.toNat) (by simpa using hx) (leWord m).toNat
      rw [Nat.mul_comm, ← this, Nat.mul_comm]
    refine ⟨?_, ?_⟩
    · rw [e2, e]
      simp only [beVal, List.length_cons, List.length_nil, Nat.zero_add, Nat.pow_one, Nat.pow_zero,
        Nat.mul_one, Nat.add_zero]
    · rw [e2, List.length_cons, Nat.pow_succ]
      exact shift_byte_lt _ _ _ l hx

theorem wordBytes_length (w : BitVec 64) : (wordBytes w).length = 8 := by simp [wordBytes]

theorem wordBytes_leWord (m : List UInt8) (h : m.length = 8) : wordBytes (leWord m) = m := by
  apply List.ext_getElem
  · simp [wordBytes, h]
  · intro i h1 h2
    simp [wordBytes]
    apply UInt8.toBitVec_inj.mp
    apply BitVec.eq_of_getLsbD_eq
    intro j hj
    simp [hj]
    have hi : i < 8 := by simpa [wordBytes] using h1
    rw [leWord_bit m _ (by omega)]
    have e1 : (8 * i + j) / 8 = i := by omega
    have e2 : (8 * i + j) % 8 = j := by omega
    rw [e1, e2, List.getElem?_eq_getElem h2, Option.getD_some]
    exact BitVec.getLsbD_eq_getElem hj

theorem leWord_wordBytes (w : BitVec 64) : leWord (wordBytes w) = w := by
  apply BitVec.eq_of_getLsbD_eq
  intro i hi
  rw [leWord_bit _ _ hi]
  have : i / 8 < 8 := by omega
  simp [wordBytes, this]
  have e : 8 * (i / 8) + i % 8 = i := by omega
  rw [e]
  have : i % 8 < 8 := by omega
  simp [this]

theorem bswap_leWord (m : List UInt8) (h : m.length = 8) : bswap (leWord m) = leWord m.reverse := by
  apply BitVec.eq_of_getLsbD_eq
  intro i hi
  rw [bswap_bit _ _ hi, leWord_bit _ _ (by omega), leWord_bit _ _ hi]
  have e1 : (8 * (7 - i / 8) + i % 8) / 8 = 7 - i / 8 := by omega
  have e2 : (8 * (7 - i / 8) + i % 8) % 8 = i % 8 := by omega
  rw [e1, e2, List.getElem?_reverse (by omega)]
  have : m.length - 1 - i / 8 = 7 - i / 8 := by omega
  rw [this]

theorem wordBytes_bswap (w : BitVec 64) : wordBytes (bswap w) = (wordBytes w).reverse := by
  conv => lhs; rw [← leWord_wordBytes w]
  rw [bswap_leWord _ (wordBytes_length w), wordBytes_leWord _ (by simp [wordBytes_length])]

theorem beVal_zeros (n : Nat) (l : List UInt8) : beVal (List.replicate n 0 ++ l) = beVal l := by
  induction n with
  | zero => rfl
  | succ n ih => simp [List.replicate_succ, beVal, ih]

theorem readPiv_eq (piv : List UInt8) (h : piv.length ≤ 8) :
    readPiv piv = .ok (BitVec.ofNat 64 (beVal piv)) := by
  rw [readPiv, if_neg (by omega), bswap_leWord _ (by simp; omega)]
  congr 1
  apply BitVec.eq_of_toNat_eq
  rw [leWord_toNat _ (by simp; omega), List.reverse_reverse, beVal_zeros, BitVec.toNat_ofNat,
    Nat.mod_eq_of_lt]
  have := beVal_lt piv
  have : 256 ^ piv.length ≤ 256 ^ 8 := Nat.pow_le_pow_right (by decide) h
  omega

/-- The eight bytes of a word in big-endian order. -/
theorem beVal_wordBytes (w : BitVec 64) : beVal (wordBytes w).reverse = w.toNat := by
  rw [← leWord_toNat _ (by simp [wordBytes_length]), leWord_wordBytes]

theorem dropWhile_zeros (l : List UInt8) :
    beVal (l.dropWhile (· == 0)) = beVal l ∧
    (l.dropWhile (· == 0)).length ≤ l.length ∧
    ∀ x t, l.dropWhile (· == 0) = x :: t → x ≠ 0 := by
  induction l with
  | nil => simp
  | cons y t ih =>
    by_cases h : y = 0
    · subst h
      simp only [List.dropWhile_cons, beq_self_eq_true, if_true]
      refine ⟨by rw [ih.1]; simp [beVal], by simp; omega, ih.2.2⟩
    · have hb : (y == 0) = false := by simpa using h
      simp only [List.dropWhile_cons, hb]
      refine ⟨rfl, Nat.le_refl _, ?_⟩
      intro x t e
      simp at e
      exact e.1 ▸ h

theorem storePiv_mod (w : BitVec 64) : beVal (storePiv w) = w.toNat % 2 ^ 40 := by
  rw [storePiv]
  split
  · next h => subst h; decide
  · rw [wordBytes_bswap, (dropWhile_zeros _).1]
    have hw := beVal_wordBytes w
    have hs : (wordBytes w).reverse = (wordBytes w).reverse.take 3 ++ (wordBytes w).reverse.drop 3 := by simp
    rw [hs, beVal_append] at hw
    have hl : ((wordBytes w).reverse.drop 3).length = 5 := by simp [wordBytes_length]
    have hlt := beVal_lt ((wordBytes w).reverse.drop 3)
    rw [hl] at hw hlt
    show beVal ((wordBytes w).reverse.drop 3) = _
    rw [← hw]
    have : (2 : Nat) ^ 40 = 256 ^ 5 := by decide
    rw [this, Nat.mul_comm, Nat.mul_add_mod, Nat.mod_eq_of_lt hlt]

theorem storePiv_length (w : BitVec 64) : (storePiv w).length ≤ 5 := by
  rw [storePiv]
  split
  · decide
  · refine Nat.le_trans (dropWhile_zeros _).2.1 ?_
    simp [wordBytes_length, pivLen]

theorem storePiv_head (w : BitVec 64) (h : w ≠ 0#64) (x : UInt8) (t : List UInt8)
    (e : storePiv w = x :: t) : x ≠ 0 := by
  rw [storePiv, if_neg h] at e
  exact (dropWhile_zeros _).2.2 x t e

end Verif.Oscore
