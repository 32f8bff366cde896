import Verif.Common
/-! Byte arrays as flat memory: reading and overwriting ranges. -/
namespace Verif

/-- The `n` elements from index `off` on (memory read; modelling convention). -/
def slice {α : Type u} (l : List α) (off n : Nat) : List α := (l.drop off).take n

/-- Overwrite the elements from index `off` on (C `memcpy`/`memset` into an array;
modelling convention).  Only used when the range lies inside the array. -/
def writeAt {α : Type u} (l : List α) (off : Nat) (bs : List α) : List α :=
  l.take off ++ bs ++ l.drop (off + bs.length)

/-- `memcpy`/`memset` into an array: outside the array is undefined behaviour
(C11 §7.24.1; modelling convention). -/
def writeChk {α : Type u} (l : List α) (off : Nat) (bs : List α) : Out (List α) :=
  if off + bs.length ≤ l.length then .ok (writeAt l off bs) else .ub

/-- Read of a range: outside the array is undefined behaviour (modelling
convention). -/
def sliceChk {α : Type u} (l : List α) (off n : Nat) : Out (List α) :=
  if off + n ≤ l.length then .ok (slice l off n) else .ub

section
variable {α : Type u}

theorem getElem?_slice (l : List α) (off n i : Nat) :
    (slice l off n)[i]? = if i < n then l[off + i]? else none := by
  simp only [slice, List.getElem?_take, List.getElem?_drop]

theorem length_slice (l : List α) (off n : Nat) (h : off + n ≤ l.length) :
    (slice l off n).length = n := by
  simp only [slice, List.length_take, List.length_drop]; omega

theorem length_writeAt (l : List α) (off : Nat) (bs : List α) (h : off + bs.length ≤ l.length) :
    (writeAt l off bs).length = l.length := by
  simp only [writeAt, List.length_append, List.length_take, List.length_drop]; omega

theorem getElem?_writeAt (l : List α) (off : Nat) (bs : List α) (i : Nat)
    (h : off + bs.length ≤ l.length) :
    (writeAt l off bs)[i]? =
      if off ≤ i ∧ i < off + bs.length then bs[i - off]? else l[i]? := by
  simp only [writeAt, List.getElem?_append, List.length_append, List.length_take, List.getElem?_take,
    List.getElem?_drop]
  have : min off l.length = off := by omega
  rw [this]
  by_cases h1 : i < off
  · simp [h1, show i < off + bs.length by omega, show ¬ off ≤ i by omega]
  · by_cases h2 : i < off + bs.length
    · simp [h1, h2, show off ≤ i by omega]
    · simp only [h2, ↓reduceIte, and_false]
      congr 1; omega

theorem slice_writeAt_same (l : List α) (off : Nat) (bs : List α) (h : off + bs.length ≤ l.length) :
    slice (writeAt l off bs) off bs.length = bs := by
  apply List.ext_getElem?
  intro i
  rw [getElem?_slice, getElem?_writeAt _ _ _ _ h]
  by_cases hi : i < bs.length
  · simp [hi]
  · simp [hi]

/-- A write does not change a disjoint range. -/
theorem slice_writeAt_disj (l : List α) (off : Nat) (bs : List α) (o n : Nat)
    (h : off + bs.length ≤ l.length) (hd : o + n ≤ off ∨ off + bs.length ≤ o ∨ n = 0) :
    slice (writeAt l off bs) o n = slice l o n := by
  apply List.ext_getElem?
  intro i
  rw [getElem?_slice, getElem?_slice, getElem?_writeAt _ _ _ _ h]
  by_cases hi : i < n
  · simp only [hi, ↓reduceIte]
    rw [if_neg (by omega)]
  · simp [hi]

/-- A write inside a range is a write to the contents of that range. -/
theorem slice_writeAt_sub (l : List α) (off : Nat) (bs : List α) (o n : Nat)
    (hn : o + n ≤ l.length) (h1 : o ≤ off) (h2 : off + bs.length ≤ o + n) :
    slice (writeAt l off bs) o n = writeAt (slice l o n) (off - o) bs := by
  apply List.ext_getElem?
  intro i
  have hl := length_slice l o n hn
  rw [getElem?_slice, getElem?_writeAt _ _ _ _ (by omega), getElem?_writeAt _ _ _ _ (by omega),
    getElem?_slice]
  by_cases hi : i < n
  · simp only [hi, ↓reduceIte]
    by_cases h3 : off ≤ o + i ∧ o + i < off + bs.length
    · rw [if_pos h3, if_pos (by omega)]
      congr 1; omega
    · rw [if_neg h3, if_neg (by omega)]
  · simp only [hi, ↓reduceIte]
    rw [if_neg (by omega)]

end
end Verif
