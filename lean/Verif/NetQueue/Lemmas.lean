import Verif.NetQueue.Spec

/-! Lemmas about the queue of received messages. -/

namespace Verif.NetQueue

theorem setTh_th (s : St) (d e : Nat) (t : Th) : (s.setTh d t).th e = if e = d then t else s.th e := rfl

theorem count_append (d : Nat) (a b : List Msg) : count d (a ++ b) = count d a + count d b := List.countP_append

theorem count_nil (d : Nat) : count d [] = 0 := rfl

theorem count_one (d : Nat) (m : Msg) : count d [m] = if m.dev = d then 1 else 0 := by
  by_cases h : m.dev = d <;> simp [count, h]

theorem count_le (d : Nat) (q : List Msg) : count d q ≤ q.length := List.countP_le_length

/-- Dropping messages of one device: what is left and what was dropped add up. -/
theorem count_drop (d p : Nat) (q : List Msg) :
    count d (q.filter fun m => !(m.dev == d && m.peer == p)) + q.countP (fun m => m.dev == d && m.peer == p) = count d q := by
  unfold count
  induction q with
  | nil => rfl
  | cons m q ih =>
    by_cases h1 : m.dev = d <;> by_cases h2 : m.peer = p <;> simp [h1, h2] at ih ⊢ <;> omega

theorem count_drop_other (d e p : Nat) (h : e ≠ d) (q : List Msg) :
    count e (q.filter fun m => !(m.dev == d && m.peer == p)) = count e q := by
  unfold count
  induction q with
  | nil => rfl
  | cons m q ih =>
    simp only [List.filter_cons, List.countP_cons]
    by_cases h1 : m.dev = d
    · have h3 : ¬ (m.dev = e) := fun x => h (x.symm.trans h1)
      split
      · rw [List.countP_cons, ih]
      · rw [ih]
        simp [h3]
    · rw [if_pos (by simp [h1]), List.countP_cons, ih]

theorem filter_count_le (p : Msg → Bool) (d : Nat) (q : List Msg) : count d (q.filter p) ≤ count d q := by
  unfold count
  exact (List.Sublist.countP_le List.filter_sublist)

/-- Messages of devices from `d` on. -/
def tailCount (d : Nat) (q : List Msg) : Nat := q.countP fun m => decide (d ≤ m.dev)

theorem tailCount_step (d : Nat) (q : List Msg) : tailCount d q = count d q + tailCount (d + 1) q := by
  unfold tailCount count
  induction q with
  | nil => rfl
  | cons m q ih =>
    by_cases h1 : m.dev = d
    · simp [h1] at ih ⊢
      have : ¬ (d + 1 ≤ d) := by omega
      omega
    · by_cases h2 : d ≤ m.dev
      · have h3 : d + 1 ≤ m.dev := by omega
        simp [h1, h2, h3] at ih ⊢
        omega
      · have h3 : ¬ (d + 1 ≤ m.dev) := by omega
        simp [h1, h2, h3] at ih ⊢
        omega

theorem count_le_tail (d e : Nat) (h : d ≤ e) (q : List Msg) : count e q ≤ tailCount d q := by
  unfold tailCount count
  apply List.countP_mono_left
  intro m _ hm
  simp at hm ⊢
  omega

theorem tail_zero (q : List Msg) : tailCount 0 q = q.length := by
  unfold tailCount
  rw [List.countP_eq_length]
  intro m _
  simp

theorem tail_none (n d : Nat) (q : List Msg) (hq : ∀ m ∈ q, m.dev < n) (h : n ≤ d) : tailCount d q = 0 := by
  unfold tailCount
  rw [List.countP_eq_zero]
  intro m hm
  have := hq m hm
  simp
  omega

theorem wakeLoop_spec (cap n : Nat) (hc : 0 < cap) (q : List Msg) (hq : ∀ m ∈ q, m.dev < n) :
    ∀ fuel d, n ≤ fuel + d → ∃ l, wakeLoop cap q fuel d (tailCount d q) = some l ∧
      (∀ e, e ∈ l ↔ d ≤ e ∧ cap ≤ count e q) ∧ l.length ≤ fuel := by
  intro fuel
  induction fuel with
  | zero =>
    intro d h
    have h0 := tail_none n d q hq (by omega)
    refine ⟨[], ?_, ?_, Nat.zero_le _⟩
    · unfold wakeLoop
      rw [if_pos (by omega)]
    · intro e
      constructor
      · intro h; cases h
      · intro ⟨h1, h2⟩
        have := count_le_tail d e h1 q
        omega
  | succ fuel ih =>
    intro d h
    by_cases ht : tailCount d q < cap
    · refine ⟨[], ?_, ?_, Nat.zero_le _⟩
      · unfold wakeLoop
        rw [if_pos ht]
      · intro e
        constructor
        · intro h; cases h
        · intro ⟨h1, h2⟩
          have := count_le_tail d e h1 q
          omega
    · obtain ⟨l, hl, hm, hlen⟩ := ih (d + 1) (by omega)
      have hs := tailCount_step d q
      unfold wakeLoop
      rw [if_neg ht]
      dsimp only
      rw [show tailCount d q - count d q = tailCount (d + 1) q by omega, hl]
      refine ⟨if count d q ≥ cap then d :: l else l, rfl, ?_, ?_⟩
      · intro e
        by_cases hcd : count d q ≥ cap
        · rw [if_pos hcd, List.mem_cons, hm]
          constructor
          · rintro (rfl | h)
            · exact ⟨Nat.le_refl _, hcd⟩
            · exact ⟨by omega, h.2⟩
          · intro ⟨h1, h2⟩
            by_cases he : e = d
            · exact Or.inl he
            · exact Or.inr ⟨by omega, h2⟩
        · rw [if_neg hcd, hm]
          constructor
          · intro h; exact ⟨by omega, h.2⟩
          · intro ⟨h1, h2⟩
            refine ⟨?_, h2⟩
            by_cases he : e = d
            · subst he; omega
            · omega
      · split
        · simp only [List.length_cons]; omega
        · omega

/-- The sum of a weight over the threads. -/
def total (f : Th → Nat) (th : Nat → Th) : Nat → Nat
  | 0 => 0
  | n + 1 => total f th n + f (th n)

theorem total_out (f : Th → Nat) (th : Nat → Th) (d : Nat) (t : Th) : ∀ n, n ≤ d →
    total f (fun e => if e = d then t else th e) n = total f th n := by
  intro n
  induction n with
  | zero => intro _; rfl
  | succ n ih =>
    intro h
    unfold total
    rw [ih (by omega), if_neg (by omega)]

theorem total_set (f : Th → Nat) (th : Nat → Th) (d : Nat) (t : Th) : ∀ n, d < n →
    total f (fun e => if e = d then t else th e) n + f (th d) = total f th n + f t := by
  intro n
  induction n with
  | zero => intro h; omega
  | succ n ih =>
    intro h
    unfold total
    by_cases hd : d = n
    · subst hd
      rw [total_out f th d t d (Nat.le_refl _), if_pos rfl]
      omega
    · have := ih (by omega)
      rw [if_neg (by omega : ¬ n = d)]
      omega

end Verif.NetQueue
