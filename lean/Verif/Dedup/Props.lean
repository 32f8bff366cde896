import Verif.Dedup.Model

/-! C23: repeated non-confirmable requests are dropped, others are not. -/

namespace Verif.Dedup

/-! ### Specification

The requests that were processed, oldest first, as (message id, device). -/

/-- What an ideal filter does: it remembers the non-confirmable requests it let
pass and drops a request if one of the last 25 has the same message id and
device. -/
def spec : List (Nat × Nat) → List Req → List (Nat × Nat) × List Bool
  | past, [] => (past, [])
  | past, r :: rs =>
    if r.con then let y := spec past rs; (y.1, true :: y.2)
    else if (r.mid, r.dev) ∈ past.drop (past.length - 25) then
      let y := spec past rs; (y.1, false :: y.2)
    else let y := spec (past ++ [(r.mid, r.dev)]) rs; (y.1, true :: y.2)

/-! ### Refinement -/

/-- The ring, read from the oldest entry on, holds the last 25 processed requests
after 25 zero entries. -/
structure Rep (s : St) (past : List (Nat × Nat)) : Prop where
  len : s.ring.length = 25
  idx : s.idx < 25
  rot : s.ring.drop s.idx ++ s.ring.take s.idx =
    (List.replicate 25 (0, 0) ++ past).drop past.length

theorem rep_init : Rep init [] := ⟨by decide, by decide, by decide⟩

theorem rot_set {α : Type} (l : List α) (i : Nat) (x : α) (n : Nat) (hl : l.length = n) (hi : i < n) :
    (l.set i x).drop ((i + 1) % n) ++ (l.set i x).take ((i + 1) % n) =
      (l.drop i ++ l.take i).drop 1 ++ [x] := by
  have e1 : (l.drop i ++ l.take i).drop 1 = l.drop (i + 1) ++ l.take i := by
    rw [List.drop_append_of_le_length (by simp; omega), List.drop_drop]
  have e2 : (l.set i x).take (i + 1) = l.take i ++ [x] := by
    rw [List.take_add_one, List.take_set_of_le (Nat.le_refl _)]
    simp [hl, hi]
  have e3 : (l.set i x).drop (i + 1) = l.drop (i + 1) := by
    rw [List.drop_set_of_lt (by omega)]
  rw [e1]
  by_cases h : i + 1 = n
  · rw [h, Nat.mod_self, List.drop_zero, List.take_zero, List.append_nil]
    have : l.set i x = (l.set i x).take (i + 1) := by
      rw [List.take_of_length_le]; simp; omega
    rw [this, e2, List.drop_of_length_le (by omega), List.nil_append]
  · rw [Nat.mod_eq_of_lt (by omega), e2, e3, List.append_assoc]

theorem rep_mem (s : St) (past : List (Nat × Nat)) (h : Rep s past) (x : Nat × Nat) :
    x ∈ s.ring ↔ x ∈ (List.replicate 25 (0, 0) ++ past).drop past.length := by
  rw [← h.rot, List.mem_append, Or.comm, ← List.mem_append, List.take_append_drop]

theorem rep_push (s : St) (past : List (Nat × Nat)) (h : Rep s past) (x : Nat × Nat) :
    Rep ⟨s.ring.set s.idx x, (s.idx + 1) % size⟩ (past ++ [x]) := by
  refine ⟨by simp [h.len], Nat.mod_lt _ (by decide), ?_⟩
  simp only [size]
  rw [rot_set _ _ _ 25 h.len h.idx, h.rot, List.drop_drop, List.length_append, List.length_singleton,
    ← List.append_assoc,
    List.drop_append_of_le_length (l₁ := List.replicate 25 (0, 0) ++ past) (by simp)]

theorem mem_dropped (past : List (Nat × Nat)) (x : Nat × Nat) (hx : x ≠ (0, 0)) :
    x ∈ (List.replicate 25 (0, 0) ++ past).drop past.length ↔ x ∈ past.drop (past.length - 25) := by
  rw [List.drop_append, List.mem_append, List.length_replicate]
  constructor
  · rintro (h | h)
    · rw [List.drop_replicate] at h
      exact absurd (List.eq_of_mem_replicate h) hx
    · exact h
  · exact .inr

theorem isDup_iff (s : St) (r : Req) : isDup s r = true ↔ (r.mid, r.dev) ∈ s.ring := by
  simp only [isDup, List.any_eq_true, Bool.and_eq_true, beq_iff_eq]
  constructor
  · rintro ⟨⟨a, b⟩, h, h1, h2⟩; simp only at h1 h2; subst h1 h2; exact h
  · intro h; exact ⟨_, h, rfl, rfl⟩

/-- C23: on every history of requests the code decides as the ideal filter does,
for all requests whose message id and device are not both 0. -/
theorem decides_as_spec (rs : List Req)
    (hnz : ∀ r ∈ rs, r.con = false → (r.mid, r.dev) ≠ (0, 0)) :
    ∀ s past, Rep s past →
      (run s rs).2 = (spec past rs).2 ∧ Rep (run s rs).1 (spec past rs).1 := by
  induction rs with
  | nil => intro s past h; exact ⟨rfl, h⟩
  | cons r rs ih =>
    intro s past h
    have ih := ih (fun r hr => hnz r (List.mem_cons_of_mem _ hr))
    simp only [run, receive, spec]
    cases hc : r.con with
    | true =>
      have := ih s past h
      exact ⟨by simp [this.1], by simp [this.2]⟩
    | false =>
      have hd : isDup s r = true ↔ (r.mid, r.dev) ∈ past.drop (past.length - 25) := by
        rw [isDup_iff, rep_mem s past h, mem_dropped _ _ (hnz r (List.mem_cons_self ..) hc)]
      by_cases hm : (r.mid, r.dev) ∈ past.drop (past.length - 25)
      · have := ih s past h
        simp [hm, hd.2 hm, this.1, this.2]
      · have hf : isDup s r = false := by
          cases hx : isDup s r with
          | true => exact absurd (hd.1 hx) hm
          | false => rfl
        have := ih _ _ (rep_push s past h (r.mid, r.dev))
        simp [hm, hf, this.1, this.2]

/-! ### The two readings of the claim -/

/-- The request `r` sent after the history `rs`: is it processed? -/
def processed (rs : List Req) (r : Req) : Bool := (receive (run init rs).1 r).2

/-- Requests of a history that were processed and are not confirmable, oldest
first. -/
def passed (rs : List Req) : List (Nat × Nat) := (spec [] rs).1

/-- The ideal filter only remembers requests that were received. -/
theorem spec_mem (rs : List Req) : ∀ past x, x ∈ (spec past rs).1 →
    x ∈ past ∨ ∃ r ∈ rs, r.con = false ∧ x = (r.mid, r.dev) := by
  induction rs with
  | nil => intro past x h; exact .inl h
  | cons r rs ih =>
    intro past x h
    simp only [spec] at h
    have lift : (x ∈ past ∨ ∃ r ∈ rs, r.con = false ∧ x = (r.mid, r.dev)) →
        x ∈ past ∨ ∃ r' ∈ r :: rs, r'.con = false ∧ x = (r'.mid, r'.dev) := by
      rintro (h | ⟨q, hq, h1, h2⟩)
      · exact .inl h
      · exact .inr ⟨q, List.mem_cons_of_mem _ hq, h1, h2⟩
    split at h
    · exact lift (ih past x h)
    · rename_i hc
      split at h
      · exact lift (ih past x h)
      · rcases ih _ x h with h | h
        · rcases List.mem_append.1 h with h | h
          · exact .inl h
          · refine .inr ⟨r, List.mem_cons_self .., ?_, by simpa using h⟩
            cases hh : r.con <;> simp_all
        · exact lift (.inr h)

/-- C23, first half: a non-confirmable request with the message id and device of
one of the last 25 processed ones is not processed again. -/
theorem repetition_dropped (rs : List Req) (r : Req)
    (hnz : ∀ q ∈ rs, q.con = false → (q.mid, q.dev) ≠ (0, 0))
    (hc : r.con = false) (hr : (r.mid, r.dev) ≠ (0, 0))
    (hrep : (r.mid, r.dev) ∈ (passed rs).drop ((passed rs).length - 25)) :
    processed rs r = false := by
  have h := (decides_as_spec rs hnz init [] rep_init).2
  rw [processed, receive, if_neg (by simp [hc]), if_pos]
  rw [isDup_iff, rep_mem _ _ h, mem_dropped _ _ hr]
  exact hrep

/-- C23, second half: a request with a message id and device that were not
received before is processed. -/
theorem fresh_processed_partial (rs : List Req) (r : Req)
    (hnz : ∀ q ∈ rs, q.con = false → (q.mid, q.dev) ≠ (0, 0))
    (hr : (r.mid, r.dev) ≠ (0, 0))
    (hnew : ∀ q ∈ rs, q.con = false → (q.mid, q.dev) ≠ (r.mid, r.dev)) :
    processed rs r = true := by
  have h := (decides_as_spec rs hnz init [] rep_init).2
  rw [processed, receive]
  split
  · rfl
  · rw [if_neg]
    rw [isDup_iff, rep_mem _ _ h, mem_dropped _ _ hr]
    intro hx
    rcases spec_mem rs [] _ (List.mem_of_mem_drop hx) with h0 | ⟨q, hq, h1, h2⟩
    · cases h0
    · exact hnew q hq h1 h2.symm

example : (∀ q ∈ [(⟨false, 7, 0, 1⟩ : Req), ⟨false, 8, 0, 1⟩], q.con = false →
      (q.mid, q.dev) ≠ (0, 0)) ∧
    processed [⟨false, 7, 0, 1⟩, ⟨false, 8, 0, 1⟩] ⟨false, 7, 0, 1⟩ = false ∧
    processed [⟨false, 7, 0, 1⟩, ⟨false, 8, 0, 1⟩] ⟨false, 9, 0, 1⟩ = true := by decide

/-- After 25 other requests a repetition is processed again, after 24 it is not. -/
example :
    processed ((List.range 25).map fun i => ⟨false, i + 1, 0, 1⟩) ⟨false, 1, 0, 1⟩ = false ∧
    processed ((List.range 26).map fun i => ⟨false, i + 1, 0, 1⟩) ⟨false, 1, 0, 1⟩ = true := by
  decide

/-- C23 is false for message id 0 of device 0: the zero entries of the empty
history make the very first such request a repetition. -/
theorem first_request_mid0_false : processed [] ⟨false, 0, 0, 1⟩ = false := by decide

/-- C23 is false if two clients happen to use the same message id: the request of
the second one is dropped. -/
theorem other_client_dropped_false :
    processed [⟨false, 7, 0, 1⟩] ⟨false, 7, 0, 2⟩ = false := by decide

/-- Confirmable requests are never recognised as repetitions. -/
theorem confirmable_repetition_false :
    processed [⟨true, 7, 0, 1⟩] ⟨true, 7, 0, 1⟩ = true := by decide

end Verif.Dedup
