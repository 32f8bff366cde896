import Verif.Memb.Model
import Verif.Memb.Spec
/-! Helper lemmas for `util/oc_memb.c`. -/
namespace Verif.Memb

/-- Shape of a pool: one count and `size` bytes per block, counts are 0 or 1. -/
def Inv (p : Pool) (s : St) : Prop :=
  s.count.length = p.num ∧ s.mem.length = p.num * p.size ∧ ∀ c ∈ s.count, c ≤ 1

/-- The blocks handed out: address `base + i * size` with a nonzero count. -/
def live (p : Pool) (s : St) (a : Nat) : Option (List UInt8) :=
  if p.base ≤ a ∧ (a - p.base) % p.size = 0 then
    match s.count[(a - p.base) / p.size]? with
    | some c => if c = 0 then none else some (slice s.mem (a - p.base) p.size)
    | none => none
  else none

theorem allocLoop_spec : ∀ (l : List Nat),
    (allocLoop l).2 = l.set (allocLoop l).1 1 ∧ (allocLoop l).1 ≤ l.length ∧
    (∀ c, l[(allocLoop l).1]? = some c → c = 0) ∧
    (∀ j < (allocLoop l).1, l[j]? ≠ some 0)
  | [] => by simp [allocLoop]
  | c :: r => by
      obtain ⟨h1, h2, h3, h4⟩ := allocLoop_spec r
      simp only [allocLoop]
      by_cases hc : c = 0
      · simp [hc]
      · simp only [hc, ↓reduceIte]
        refine ⟨by simp [h1], by simp; omega, by simpa using h3, ?_⟩
        intro j hj
        cases j with
        | zero => simp [hc]
        | succ j => simpa using h4 j (by omega)

theorem freeLoop_spec (size ptr : Nat) (hs : 0 < size) : ∀ (l : List Nat) (base : Nat),
    (∀ c ∈ l, c ≤ 1) →
    freeLoop size ptr base l =
      if base ≤ ptr ∧ (ptr - base) % size = 0 then l.set ((ptr - base) / size) 0 else l
  | [], base, _ => by simp [freeLoop]
  | c :: r, base, hb => by
      have hc : c ≤ 1 := hb c (by simp)
      simp only [freeLoop]
      by_cases h1 : base = ptr
      · subst h1
        by_cases h2 : c = 0
        · simp [h2]
        · have : c = 1 := by omega
          simp [this]
      · simp only [h1, ↓reduceIte]
        rw [freeLoop_spec size ptr hs r (base + size) (fun c hc => hb c (by simp [hc]))]
        by_cases h3 : base + size ≤ ptr
        · have e : ptr - base = ptr - (base + size) + size := by omega
          have h4 : (ptr - base) % size = (ptr - (base + size)) % size := by
            rw [e, Nat.add_mod_right]
          have h5 : (ptr - base) / size = (ptr - (base + size)) / size + 1 := by
            rw [e, Nat.add_div_right _ hs]
          rw [h4, h5]
          simp only [h3, true_and, show base ≤ ptr by omega]
          split <;> simp
        · simp only [h3, false_and, ↓reduceIte]
          rw [if_neg]
          rintro ⟨h4, h5⟩
          have h6 : (ptr - base) % size = ptr - base := Nat.mod_eq_of_lt (by omega)
          omega

theorem numfree_zero : ∀ (l : List Nat), numfree l = 0 ↔ ∀ c ∈ l, c ≠ 0
  | [] => by simp [numfree]
  | c :: r => by
      simp only [numfree, List.mem_cons, forall_eq_or_imp]
      rw [← numfree_zero r]
      split <;> omega

theorem numfree_set : ∀ (l : List Nat) (i c v : Nat), l[i]? = some c →
    numfree (l.set i v) + (if c = 0 then 1 else 0) = numfree l + (if v = 0 then 1 else 0)
  | [], i, c, v, h => by simp at h
  | a :: r, 0, c, v, h => by
      simp at h; subst h
      simp only [List.set_cons_zero, numfree]
      omega
  | a :: r, i + 1, c, v, h => by
      have := numfree_set r i c v (by simpa using h)
      simp only [List.set_cons_succ, numfree]
      omega

theorem mul_fit {i n size : Nat} (h : i < n) : i * size + size ≤ n * size := by
  have := Nat.mul_le_mul_right size (show i + 1 ≤ n by omega)
  rw [Nat.succ_mul] at this
  exact this

theorem addr_decomp {p : Pool} {a : Nat} (h : p.base ≤ a ∧ (a - p.base) % p.size = 0) :
    a = p.base + (a - p.base) / p.size * p.size := by
  have := Nat.div_add_mod (a - p.base) p.size
  rw [h.2, Nat.mul_comm] at this
  omega

theorem live_slot (p : Pool) (s : St) (hs : 0 < p.size) (i : Nat) :
    live p s (p.base + i * p.size) =
      match s.count[i]? with
      | some c => if c = 0 then none else some (slice s.mem (i * p.size) p.size)
      | none => none := by
  have h1 : p.base + i * p.size - p.base = i * p.size := by omega
  simp only [live, h1, Nat.mul_mod_left, and_true, Nat.mul_div_cancel _ hs]
  simp

theorem live_nonslot (p : Pool) (s : St) (a : Nat) (h : ∀ i, a ≠ p.base + i * p.size) :
    live p s a = none := by
  unfold live
  split
  · next h' => exact absurd (addr_decomp h') (h _)
  · rfl

theorem slot_ne {p : Pool} {i j : Nat} (h : p.base + i * p.size ≠ p.base + j * p.size) : i ≠ j := by
  rintro rfl; exact h rfl

theorem slots_disj {i j size : Nat} (h : i ≠ j) : i * size + size ≤ j * size ∨ j * size + size ≤ i * size := by
  rcases Nat.lt_or_gt_of_ne h with h | h
  · exact .inl (mul_fit h)
  · exact .inr (mul_fit h)

end Verif.Memb
