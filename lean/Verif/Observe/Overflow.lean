import Verif.Observe.Props

/-!
Where the counter of observers of a resource wraps around (it is a `uint8_t`).
-/

namespace Verif.Observe

theorem run_append {E : Type} (cmp : E → E → Bool) (a b : List (Op E)) (s : St E) :
    run cmp s (a ++ b) = (run cmp s a).bind fun s' => run cmp s' b := by
  induction a generalizing s with
  | nil => rfl
  | cons o r ih =>
    simp only [List.cons_append, run]
    cases exec cmp s o with
    | ub => rfl
    | ok s' => exact ih s'

/-- `n` clients register for one resource. -/
def fillOps (n : Nat) : List (Op Nat) :=
  .addResource 0 pathA :: (List.range n).map fun i => .register i [97] 0 [1] 0

/-- Equality of client addresses. -/
def eqCmp : Nat → Nat → Bool := fun a b => a == b

theorem countRes_all {l : List (Obs Nat)} (h : ∀ o ∈ l, o.res = 0) : countRes l 0 = l.length := by
  rw [countRes, List.countP_eq_length]
  intro o ho; simp [h o ho]

theorem fill_step (s : St Nat) (h : Inv eqCmp s) (n : Nat)
    (hr : ∀ o ∈ s.obs, o.res = 0 ∧ o.ep < n) :
    ∃ s1, removeBy (matchData eqCmp n [97] 0) true s = .ok s1 ∧ Inv eqCmp s1.1 ∧ Frame s s1.1 ∧
      s1.1.obs = s.obs := by
  obtain ⟨s1, e1, i1, f1, o1⟩ := removeBy_all eqCmp
    (fun q => eqCmp q.ep n && q.url == [97] && q.iface == 0) (matchData eqCmp n [97] 0) s h
    (fun _ _ _ _ => rfl)
  refine ⟨_, e1, i1, f1, ?_⟩
  rw [o1, List.filter_eq_self]
  intro o ho
  have := (hr o ho).2
  have h1 : eqCmp o.ep n = false := by simp [eqCmp]; omega
  simp [h1]

theorem fill_reach (n : Nat) (hn : n ≤ 255) :
    ∃ s, run eqCmp init (fillOps n) = .ok s ∧ Inv eqCmp s ∧ s.obs.length = n ∧
      (∀ o ∈ s.obs, o.res = 0 ∧ o.ep < n) ∧ s.uri 0 = some pathA := by
  induction n with
  | zero =>
    obtain ⟨s, e, i⟩ := exec_ok eqCmp (init : St Nat) (inv_init eqCmp) (.addResource 0 pathA) rfl
    refine ⟨s, ?_, i, ?_⟩
    · simp only [fillOps, List.range_zero, List.map_nil, run, e]; rfl
    · simp only [exec] at e
      injection e with e
      subst e
      simp [init]
  | succ n ih =>
    obtain ⟨s, e, i, hl, hr, hu⟩ := ih (by omega)
    have hc := countRes_all fun o ho => (hr o ho).1
    obtain ⟨s', e', i', u', -, -, -, o'⟩ := add_spec eqCmp s i n [97] 0 [1] 0 pathA hu (by decide) (by omega)
    have hfil : (s.obs.filter fun q => !(eqCmp q.ep n && q.url == [97] && q.iface == 0)) = s.obs := by
      rw [List.filter_eq_self]
      intro o ho
      have := (hr o ho).2
      have h1 : eqCmp o.ep n = false := by simp [eqCmp]; omega
      simp [h1]
    rw [hfil] at o'
    refine ⟨s', ?_, i', by rw [o']; simp [hl], ?_, by rw [u', hu]⟩
    · have : fillOps (n + 1) = fillOps n ++ [.register n [97] 0 [1] 0] := by
        simp [fillOps, List.range_succ]
      rw [this, run_append, e]
      show (exec eqCmp s (.register n [97] 0 [1] 0)).bind _ = _
      rw [exec, e']; rfl
    · intro o ho
      rw [o'] at ho
      rcases List.mem_append.1 ho with ho | ho
      · have := hr o ho; omega
      · rw [List.mem_singleton] at ho; subst ho; simp

/-- C24 is false without the bound: after 256 clients registered for a resource
its counter is 0 (so that it is not notified any more). -/
theorem counter_wraps_false :
    ∃ s, run eqCmp init (fillOps 256) = .ok s ∧ s.obs.length = 256 ∧ s.num 0 = 0 ∧
      (∀ o ∈ s.obs, o.res = 0) ∧ s.uri 0 = some pathA := by
  obtain ⟨s, e, i, hl, hr, hu⟩ := fill_reach 255 (by omega)
  have hc := countRes_all fun o ho => (hr o ho).1
  obtain ⟨s1, e1, i1, f1, o1⟩ := fill_step s i 255 hr
  have hn : s1.1.num 0 = 255 := by
    rw [i1.count 0 (by rw [f1.uri, hu]; rfl), o1, hc, hl]
  refine ⟨{ s1.1 with
      obs := s1.1.obs ++ [⟨s1.1.nextId, 255, [97], 0, [1], 0, 0, s1.1.g⟩]
      num := fun q => if q = 0 then (s1.1.num q + 1) % 256 else s1.1.num q
      nextId := s1.1.nextId + 1 }, ?_, ?_⟩
  · have : fillOps 256 = fillOps 255 ++ [.register 255 [97] 0 [1] 0] := by
      rw [fillOps, fillOps, show (256 : Nat) = 255 + 1 from rfl, List.range_succ, List.map_append,
        List.cons_append]
      rfl
    rw [this, run_append, e]
    show (exec eqCmp s (.register 255 [97] 0 [1] 0)).bind _ = _
    rw [exec, add, e1]
    rfl
  · refine ⟨?_, ?_, ?_, ?_⟩
    · simp only [o1, List.length_append, hl, List.length_singleton]
    · simp only [if_true, hn]
    · intro o ho
      simp only [o1] at ho
      rcases List.mem_append.1 ho with ho | ho
      · exact (hr o ho).1
      · rw [List.mem_singleton] at ho; subst ho; rfl
    · simp only [f1.uri, hu]

/-- ... and deleting the resource leaves all of them behind: the next removal reads
the freed resource. -/
theorem dangling_observer_false :
    run eqCmp init (fillOps 256 ++ [.delete 0, .freeAll]) = .ub := by
  obtain ⟨s, e, hl, hn, hr, hu⟩ := counter_wraps_false
  rw [run_append, e]
  show (exec eqCmp s (.delete 0)).bind _ = _
  rw [exec, deleteResource, hu]
  dsimp only
  rw [if_neg (by omega)]
  show (exec eqCmp _ .freeAll).bind _ = _
  rw [exec, removeBy]
  cases ho : s.obs with
  | nil => rw [ho] at hl; cases hl
  | cons o r =>
    have h0 := hr o (by rw [ho]; exact List.mem_cons_self ..)
    simp [Out.bind, removeLoop, removeOne, h0]

end Verif.Observe
