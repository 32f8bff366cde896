import Verif.Memb.Lemmas
/-! Property theorems for `util/oc_memb.c` (C08). -/
namespace Verif.Memb
open Spec

/-- One interface call (or store by an owner) on the model. -/
def exec (p : Pool) (s : St) : Op → Out (St × Option Nat)
  | .alloc => alloc p s
  | .free a => .ok ((free p s a).1, none)
  | .store a off bs => do let s ← store p s a off bs; return (s, none)

/-- C08: allocation.  It fails exactly when no block is free, otherwise it hands
out a zeroed block inside the pool that was not handed out, and touches no other
block. -/
theorem alloc_spec (p : Pool) (s : St) (hs : 0 < p.size) (h : Inv p s) :
    (numfree s.count = 0 ∧ alloc p s = .ok (s, none)) ∨
    (∃ s' a, 0 < numfree s.count ∧ alloc p s = .ok (s', some a) ∧ Inv p s' ∧
      live p s a = none ∧ p.base ≤ a ∧ a + p.size ≤ p.base + p.num * p.size ∧
      (∀ b, live p s' b = if b = a then some (List.replicate p.size 0) else live p s b) ∧
      numfree s'.count + 1 = numfree s.count) := by
  obtain ⟨hc, hm, hb⟩ := h
  obtain ⟨h1, h2, h3, h4⟩ := allocLoop_spec s.count
  generalize hi : (allocLoop s.count).1 = i at *
  by_cases hlt : i < p.num
  · right
    have hget : s.count[i]? = some 0 := by
      have hx : s.count[i]? = some s.count[i] := List.getElem?_eq_getElem (by omega)
      rw [hx, h3 _ hx]
    have hw : i * p.size + (List.replicate p.size (0 : UInt8)).length ≤ s.mem.length := by
      rw [hm, List.length_replicate]; exact mul_fit hlt
    have hnf := numfree_set s.count i 0 1 hget
    simp only [↓reduceIte, Nat.one_ne_zero, Nat.add_zero] at hnf
    refine ⟨⟨s.count.set i 1, writeAt s.mem (i * p.size) (List.replicate p.size 0)⟩,
      p.base + i * p.size, ?_, ?_, ?_, ?_, ?_, ?_, ?_, ?_⟩
    · omega
    · simp only [alloc, hi, hlt, ↓reduceIte, writeChk, hw, Out.ok_bind, Out.pure_eq, h1]
    · refine ⟨by simpa using hc, by rw [length_writeAt _ _ _ hw, hm], ?_⟩
      intro c hcm
      rcases List.mem_or_eq_of_mem_set hcm with h | h
      · exact hb c h
      · omega
    · rw [live_slot p s hs, hget]; rfl
    · omega
    · have := mul_fit (size := p.size) hlt; omega
    · intro b
      by_cases hsl : ∃ j, b = p.base + j * p.size
      · obtain ⟨j, rfl⟩ := hsl
        rw [live_slot p _ hs, live_slot p s hs]
        simp only [List.getElem?_set]
        by_cases hij : i = j
        · subst hij
          have hlen : i < s.count.length := by omega
          have hss := slice_writeAt_same s.mem (i * p.size) (List.replicate p.size 0) hw
          rw [List.length_replicate] at hss
          simp [hlen, hss]
        · have hne : p.base + j * p.size ≠ p.base + i * p.size := by
            intro h
            have : j * p.size = i * p.size := by omega
            exact hij (Nat.eq_of_mul_eq_mul_right hs this).symm
          simp only [hij, hne, ↓reduceIte]
          rw [slice_writeAt_disj _ _ _ _ _ hw]
          have := slots_disj (size := p.size) hij
          rw [List.length_replicate]
          omega
      · have hsl' : ∀ j, b ≠ p.base + j * p.size := fun j h => hsl ⟨j, h⟩
        rw [live_nonslot p _ b hsl', live_nonslot p _ b hsl', if_neg (hsl' i)]
    · exact hnf
  · left
    have hie : i = s.count.length := by omega
    refine ⟨?_, ?_⟩
    · rw [numfree_zero]
      intro c hcm h0
      obtain ⟨j, hj, he⟩ := List.mem_iff_getElem.mp hcm
      exact h4 j (by omega) (by rw [List.getElem?_eq_getElem hj, he, h0])
    · have hset : s.count.set i 1 = s.count := List.set_eq_of_length_le (by omega)
      simp only [alloc, hi, hlt, ↓reduceIte, h1, hset]

example : Inv ⟨1000, 2, 2⟩ ⟨[1, 0], [7, 7, 7, 7]⟩ ∧
    (∃ s', alloc ⟨1000, 2, 2⟩ ⟨[1, 0], [7, 7, 7, 7]⟩ = .ok (s', some 1002)) :=
  ⟨⟨rfl, rfl, by decide⟩, _, rfl⟩

/-- C08: freeing a block returns exactly that block to the pool; any other
pointer is ignored.  The number passed to the callback is the new number of free
blocks. -/
theorem free_spec (p : Pool) (s : St) (hs : 0 < p.size) (h : Inv p s) (ptr : Nat) :
    Inv p (free p s ptr).1 ∧
    (∀ b, live p (free p s ptr).1 b = if b = ptr then none else live p s b) ∧
    (free p s ptr).2 = numfree s.count + (if live p s ptr = none then 0 else 1) ∧
    (free p s ptr).2 = numfree (free p s ptr).1.count := by
  obtain ⟨hc, hm, hb⟩ := h
  by_cases hslot : p.base ≤ ptr ∧ (ptr - p.base) % p.size = 0
  · have hd := addr_decomp hslot
    generalize (ptr - p.base) / p.size = i at hd
    have hsub : ptr - p.base = i * p.size := by omega
    have hfl : freeLoop p.size ptr p.base s.count = s.count.set i 0 := by
      rw [freeLoop_spec p.size ptr hs s.count p.base hb, if_pos hslot, hsub,
        Nat.mul_div_cancel _ hs]
    subst hd
    simp only [free, hfl]
    refine ⟨⟨by simpa using hc, hm, ?_⟩, ?_, ?_, trivial⟩
    · intro c hcm
      rcases List.mem_or_eq_of_mem_set hcm with h | h
      · exact hb c h
      · omega
    · intro b
      by_cases hsl : ∃ j, b = p.base + j * p.size
      · obtain ⟨j, rfl⟩ := hsl
        rw [live_slot p _ hs, live_slot p s hs]
        simp only [List.getElem?_set]
        by_cases hij : i = j
        · subst hij
          by_cases hlen : i < s.count.length <;> simp [hlen]
        · have hne : p.base + j * p.size ≠ p.base + i * p.size := by
            intro h
            have : j * p.size = i * p.size := by omega
            exact hij (Nat.eq_of_mul_eq_mul_right hs this).symm
          simp only [hij, hne, ↓reduceIte]
      · have hsl' : ∀ j, b ≠ p.base + j * p.size := fun j h => hsl ⟨j, h⟩
        rw [live_nonslot p _ b hsl', live_nonslot p _ b hsl', if_neg (hsl' i)]
    · rw [live_slot p s hs]
      cases hg : s.count[i]? with
      | none =>
        have : s.count.set i 0 = s.count := List.set_eq_of_length_le (by simpa using hg)
        simp [this]
      | some c =>
        have := numfree_set s.count i c 0 hg
        by_cases hc0 : c = 0
        · simp [hc0] at this ⊢; omega
        · simp [hc0] at this ⊢; omega
  · have hfl : freeLoop p.size ptr p.base s.count = s.count := by
      rw [freeLoop_spec p.size ptr hs s.count p.base hb, if_neg hslot]
    have hn : live p s ptr = none := by simp [live, hslot]
    simp only [free, hfl, hn, ↓reduceIte, Nat.add_zero, and_true]
    refine ⟨⟨hc, hm, hb⟩, ?_⟩
    intro b
    by_cases hbp : b = ptr
    · subst hbp; simp [hn]
    · simp [hbp]

example : live ⟨1000, 2, 2⟩ ⟨[1, 1], [7, 7, 7, 7]⟩ 1002 = some [7, 7] ∧
    live ⟨1000, 2, 2⟩ (free ⟨1000, 2, 2⟩ ⟨[1, 1], [7, 7, 7, 7]⟩ 1002).1 1002 = none := by decide

/-- C08: blocks handed out at different addresses do not overlap and lie inside
the pool. -/
theorem live_disjoint (p : Pool) (s : St) (hs : 0 < p.size) (h : Inv p s) (a b : Nat)
    (ha : live p s a ≠ none) (hb : live p s b ≠ none) :
    inmemb p a ∧ a + p.size ≤ p.base + p.num * p.size ∧
    (a ≠ b → a + p.size ≤ b ∨ b + p.size ≤ a) := by
  have key : ∀ x, live p s x ≠ none → ∃ i, i < p.num ∧ x = p.base + i * p.size := by
    intro x hx
    by_cases hsl : ∃ j, x = p.base + j * p.size
    · obtain ⟨j, rfl⟩ := hsl
      refine ⟨j, ?_, rfl⟩
      rw [live_slot p s hs] at hx
      cases hg : s.count[j]? with
      | none => simp [hg] at hx
      | some c =>
        have := (List.getElem?_eq_some_iff.mp hg).1
        rw [h.1] at this
        exact this
    · exact absurd (live_nonslot p s x (fun j h => hsl ⟨j, h⟩)) hx
  obtain ⟨i, hi, rfl⟩ := key a ha
  obtain ⟨j, hj, rfl⟩ := key b hb
  have h1 := mul_fit (size := p.size) hi
  refine ⟨by simp [inmemb]; omega, by omega, ?_⟩
  intro hne
  have := slots_disj (size := p.size) (slot_ne hne)
  omega

/-- C08: every call refines the specification step and keeps the pool
well-formed, without undefined behaviour. -/
theorem exec_refines (p : Pool) (s : St) (hs : 0 < p.size) (h : Inv p s) (o : Op)
    (hv : Valid p.size (live p s) o) :
    ∃ s' r, exec p s o = .ok (s', r) ∧ Inv p s' ∧
      Step p.size (live p s) o r (live p s') := by
  cases o with
  | alloc =>
    rcases alloc_spec p s hs h with ⟨_, h1⟩ | ⟨s', a, _, h1, h2, h3, _, _, h4, _⟩
    · exact ⟨s, none, h1, h, .allocFail _⟩
    · refine ⟨s', some a, h1, h2, ?_⟩
      have : live p s' = fun b => if b = a then some (List.replicate p.size 0) else live p s b :=
        funext h4
      rw [this]
      exact .allocOk _ _ h3
  | free ptr =>
    obtain ⟨h1, h2, _⟩ := free_spec p s hs h ptr
    refine ⟨_, none, rfl, h1, ?_⟩
    rw [funext h2]
    exact .free _ _
  | store ptr off bs =>
    obtain ⟨hv1, hv2⟩ := hv
    by_cases hsl : ∃ j, ptr = p.base + j * p.size
    · obtain ⟨i, rfl⟩ := hsl
      obtain ⟨c, hcl⟩ := Option.ne_none_iff_exists'.mp hv1
      have hl := hcl
      rw [live_slot p s hs] at hl
      cases hg : s.count[i]? with
      | none => simp [hg] at hl
      | some k =>
        by_cases hk : k = 0
        · simp [hg, hk] at hl
        · simp only [hg, hk, ↓reduceIte, Option.some.injEq] at hl
          have hi : i < p.num := by
            have := (List.getElem?_eq_some_iff.mp hg).1
            rw [h.1] at this; exact this
          have hfit := mul_fit (size := p.size) hi
          have hmem := h.2.1
          have hsub : p.base + i * p.size - p.base + off = i * p.size + off := by omega
          have hw : i * p.size + off + bs.length ≤ s.mem.length := by omega
          refine ⟨⟨s.count, writeAt s.mem (i * p.size + off) bs⟩, none, ?_, ?_, ?_⟩
          · simp only [exec, store, hsub, writeChk, hw, ↓reduceIte, Out.ok_bind, Out.pure_eq]
          · exact ⟨h.1, by rw [length_writeAt _ _ _ hw]; exact hmem, h.2.2⟩
          · have : live p ⟨s.count, writeAt s.mem (i * p.size + off) bs⟩ =
                fun b => if b = p.base + i * p.size then some (writeAt c off bs) else live p s b := by
              funext b
              by_cases hsl : ∃ j, b = p.base + j * p.size
              · obtain ⟨j, rfl⟩ := hsl
                rw [live_slot p _ hs, live_slot p s hs]
                by_cases hij : i = j
                · subst hij
                  rw [slice_writeAt_sub _ _ _ _ _ (by omega) (by omega) (by omega)]
                  have : i * p.size + off - i * p.size = off := by omega
                  simp [hg, hk, ← hl, this]
                · have hne : p.base + j * p.size ≠ p.base + i * p.size := by
                    intro h
                    have : j * p.size = i * p.size := by omega
                    exact hij (Nat.eq_of_mul_eq_mul_right hs this).symm
                  simp only [hne, ↓reduceIte]
                  rw [slice_writeAt_disj _ _ _ _ _ hw]
                  have := slots_disj (size := p.size) hij
                  omega
              · have hsl' : ∀ j, b ≠ p.base + j * p.size := fun j h => hsl ⟨j, h⟩
                rw [live_nonslot p _ b hsl', live_nonslot p _ b hsl', if_neg (hsl' i)]
            rw [this]
            exact .store _ _ _ _ _ hcl
    · exact absurd (live_nonslot p s ptr (fun j h => hsl ⟨j, h⟩)) hv1

/-- Histories of the specification: calls with their results. -/
inductive Hist (size : Nat) : Live → List Op → List (Option Nat) → Live → Prop
  | nil (m) : Hist size m [] [] m
  | cons {m o r m' os rs m''} : Valid size m o → Step size m o r m' → Hist size m' os rs m'' →
      Hist size m (o :: os) (r :: rs) m''

/-- Histories of the model; a client that breaks its obligations is stopped. -/
inductive Runs (p : Pool) : St → List Op → List (Option Nat) → St → Prop
  | nil (s) : Runs p s [] [] s
  | cons {s o r s' os rs s''} : Valid p.size (live p s) o → exec p s o = .ok (s', r) →
      Runs p s' os rs s'' → Runs p s (o :: os) (r :: rs) s''

/-- C08: every history of a pool is a history of the specification: a block
handed out keeps what its owner wrote until it is freed, whatever else happens. -/
theorem runs_refine (p : Pool) (hs : 0 < p.size) : ∀ (s : St) (os : List Op)
    (rs : List (Option Nat)) (s' : St), Inv p s → Runs p s os rs s' →
    Inv p s' ∧ Hist p.size (live p s) os rs (live p s') := by
  intro s os rs s' hi hr
  induction hr with
  | nil s => exact ⟨hi, .nil _⟩
  | cons hv he _ ih =>
    obtain ⟨s1, r1, h1, h2, h3⟩ := exec_refines p _ hs hi _ hv
    rw [he] at h1
    simp only [Out.ok.injEq, Prod.mk.injEq] at h1
    obtain ⟨rfl, rfl⟩ := h1
    obtain ⟨h4, h5⟩ := ih h2
    exact ⟨h4, .cons hv h3 h5⟩

example : Runs ⟨0, 2, 1⟩ ⟨[0], [9, 9]⟩ [.alloc, .store 0 1 [5], .alloc, .free 0, .alloc]
    [some 0, none, none, none, some 0] ⟨[1], [0, 0]⟩ := by
  refine .cons trivial rfl (.cons ?_ rfl (.cons trivial rfl (.cons trivial rfl (.cons trivial rfl (.nil _)))))
  exact ⟨by decide, by decide⟩

/-- C08 (boundary): initialisation is free of undefined behaviour exactly when the
pool is empty or its blocks are at least as large as a pointer, and then no block
is handed out. -/
theorem init_spec (p : Pool) (s : St) (h1 : s.count.length = p.num)
    (h2 : s.mem.length = p.num * p.size) :
    (init p s ≠ .ub ↔ p.num = 0 ∨ ptrSize ≤ p.size) ∧
    ∀ s', init p s = .ok s' → Inv p s' ∧ numfree s'.count = p.num ∧ ∀ a, live p s' a = none := by
  by_cases hn : p.num = 0
  · have hc : s.count = [] := List.length_eq_zero_iff.mp (by omega)
    simp only [init, hn, Nat.lt_irrefl, gt_iff_lt, ↓reduceIte, ne_eq, reduceCtorEq, not_false_iff,
      true_or, Out.ok.injEq, true_and]
    rintro s' rfl
    refine ⟨⟨h1, h2, by simp [hc]⟩, by simp [hc, numfree], ?_⟩
    intro a; simp [live, hc]
  · have hp : p.num > 0 := by omega
    have hle : p.num * ptrSize ≤ p.num * p.size ↔ ptrSize ≤ p.size :=
      Nat.mul_le_mul_left_iff hp
    have hw : writeAt s.count 0 (List.replicate p.num 0) = List.replicate p.num 0 := by
      simp [writeAt, ← h1]
    have hchk : writeChk s.count 0 (List.replicate p.num 0) = .ok (List.replicate p.num 0) := by
      simp [writeChk, h1, hw]
    simp only [init, hp, ↓reduceIte, hchk, Out.ok_bind, hn, false_or]
    simp only [writeChk, List.length_replicate, Nat.zero_add, h2, hle]
    by_cases hb : ptrSize ≤ p.size
    · simp only [hb, ↓reduceIte, Out.ok_bind, Out.pure_eq, ne_eq, reduceCtorEq, not_false_iff,
        true_and, Out.ok.injEq]
      rintro s' rfl
      refine ⟨⟨by simp, ?_, ?_⟩, ?_, ?_⟩
      · simp only
        rw [length_writeAt _ _ _ (by simp [h2]; exact hle.mpr hb), h2]
      · intro c hc
        rw [List.eq_of_mem_replicate hc]; omega
      · simp only
        clear hp hle hw hchk h1 h2 hn
        induction p.num with
        | zero => rfl
        | succ n ih => simp only [List.replicate_succ, numfree, ih, ↓reduceIte]; omega
      · intro a
        simp only [live]
        split
        · split
          · next c hc =>
            rw [if_pos (List.eq_of_mem_replicate (List.mem_of_getElem? hc))]
          · rfl
        · rfl
    · simp [hb]

example : ∃ s', init ⟨1000, 8, 1⟩ ⟨[1], [1, 2, 3, 4, 5, 6, 7, 8]⟩ = .ok s' ∧ s'.count = [0] :=
  ⟨_, rfl, rfl⟩

/-- A pool of blocks smaller than a pointer is overrun by its initialisation. -/
theorem init_small_overrun : init ⟨1000, 4, 2⟩ ⟨[0, 0], List.replicate 8 0⟩ = .ub := rfl

/-- C08: the membership test holds exactly for the addresses of the bytes of the
blocks. -/
theorem inmemb_iff (p : Pool) (hs : 0 < p.size) (a : Nat) :
    inmemb p a = true ↔ ∃ i off, i < p.num ∧ off < p.size ∧ a = p.base + i * p.size + off := by
  unfold inmemb
  simp only [Bool.and_eq_true, decide_eq_true_eq]
  constructor
  · rintro ⟨h1, h2⟩
    have hd : (a - p.base) / p.size < p.num := by
      rw [Nat.div_lt_iff_lt_mul hs]; omega
    refine ⟨(a - p.base) / p.size, (a - p.base) % p.size, hd, Nat.mod_lt _ hs, ?_⟩
    have := Nat.div_add_mod' (a - p.base) p.size
    omega
  · rintro ⟨i, off, h1, h2, rfl⟩
    have : (i + 1) * p.size ≤ p.num * p.size := Nat.mul_le_mul_right _ h1
    rw [Nat.add_mul] at this
    omega

example : inmemb ⟨1000, 8, 4⟩ 1031 = true ∧ inmemb ⟨1000, 8, 4⟩ 1032 = false := by decide

end Verif.Memb
