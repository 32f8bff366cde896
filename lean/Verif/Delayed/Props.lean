import Verif.Delayed.Lemmas
/-!
Delayed callbacks (C61) and periodic observe callbacks (C62).

`run beh init ops` is a history of the library: calls of the user, expiring timers and
polls of the event loop in any order; `beh` says what the user's callbacks do.  The
statements are about the record of what happened (`log`) and the callbacks that exist.
-/
namespace Verif.Delayed

/-- What a callback does; used in the examples. -/
def quiet (d : Bool) : Nat → List Act × Bool := fun _ => ([], d)

/-! ## A callback runs once for each time its timer expires -/

/-- For every history: a callback never runs more often than its timer expired; for one
that still exists, the two differ only by an expiry that waits for the next poll. -/
theorem runs_match_expiries (beh : Nat → List Act × Bool) (ops : List Op) (s : St) (h : run beh init ops = .ok s) :
    (∀ i, s.log.count (.ran i) ≤ s.log.count (.due i)) ∧
    ∀ c, c ∈ s.timed ∨ c ∈ s.obs →
      s.log.count (.ran c.id) + (if c.expired then 1 else 0) = s.log.count (.due c.id) := by
  have hi := run_inv ops init_inv h
  refine ⟨hi.dueLe, fun c hc => ?_⟩
  have := hi.due c (List.mem_append.2 hc)
  simp only [ne_eq, reduceCtorEq, not_false_eq_true, and_true] at this
  exact this

/-- After a poll of the event loop no callback is overdue: each one that still exists has
run exactly as often as its timer expired. -/
theorem poll_serves_all (beh : Nat → List Act × Bool) (ops : List Op) (s : St)
    (h : (run beh init ops).bind (poll beh) = .ok s) :
    ∀ c, c ∈ s.timed ∨ c ∈ s.obs → c.expired = false ∧ s.log.count (.ran c.id) = s.log.count (.due c.id) := by
  cases e : run beh init ops with
  | ub => rw [e] at h; cases h
  | ok s1 =>
    rw [e, Out.bind] at h
    have hi := run_inv ops init_inv e
    have hs := poll_served' hi h
    have hi' := poll_inv hi h
    intro c hc
    have hc' : c ∈ s.cbs := List.mem_append.2 hc
    have hx := hs c hc'
    have := hi'.due c hc'
    rw [hx] at this
    simp only [Bool.false_eq_true, false_and, if_false, Nat.add_zero] at this
    exact ⟨hx, this⟩

/-- Non-trivial: two callbacks, one expires twice and runs twice. -/
example : (run (quiet false) init [.act (.add 1 10 true), .act (.add 2 20 true), .expire (· == 0), .poll,
    .expire (fun _ => true), .poll]).bind (fun s => .ok (s.log, s.timed.length)) =
    .ok ([.added 0, .added 1, .due 0, .ran 0, .due 0, .due 1, .ran 0, .ran 1], 2) := by decide +kernel

/-! ## Release -/

/-- For every history: after a callback was released it is never run again. -/
theorem never_runs_after_release (beh : Nat → List Act × Bool) (ops : List Op) (s : St) (h : run beh init ops = .ok s)
    (a b : List Ev) (i : Nat) (e : s.log = a ++ .freed i :: b) : .ran i ∉ b :=
  ((run_inv ops init_inv h).order a b i e).1

/-- For every history: a callback that was added either still exists and was not
released, or was released exactly once (no leak and no double release); different
callbacks are different allocations. -/
theorem released_once (beh : Nat → List Act × Bool) (ops : List Op) (s : St) (h : run beh init ops = .ok s) :
    (∀ i, .added i ∈ s.log →
      s.log.count (.freed i) + ((s.timed ++ s.obs).map (·.id)).count i = 1) ∧
    (∀ i, .added i ∉ s.log → .freed i ∉ s.log ∧ .ran i ∉ s.log ∧ i ∉ (s.timed ++ s.obs).map (·.id)) := by
  have hi := run_inv ops init_inv h
  constructor
  · intro i ha
    have h1 := hi.added i
    have h2 := hi.freed i
    have : 0 < s.log.count (.added i) := List.count_pos_iff.2 ha
    have hlt : i < s.next := by
      split at h1
      · assumption
      · omega
    rw [if_pos hlt] at h2
    rw [show ((s.timed ++ s.obs).map (·.id)).count i = if i ∈ (s.timed ++ s.obs).map (·.id) then 1 else 0 from
      hi.nodup.count ..]
    exact h2
  · intro i ha
    have h1 := hi.added i
    have h2 := hi.freed i
    rw [List.count_eq_zero.2 ha] at h1
    have hn : ¬ i < s.next := by split at h1 <;> omega
    rw [if_neg hn] at h2
    have h3 := hi.dueLe i
    have h4 := hi.fresh i (by omega)
    refine ⟨List.count_eq_zero.1 (by omega), List.count_eq_zero.1 (by omega), ?_⟩
    intro hm
    rw [show s.cbs = s.timed ++ s.obs from rfl, if_pos hm] at h2
    omega

/-- Non-trivial: a callback that is done is released, another is removed before it runs. -/
example : (run (quiet true) init [.act (.add 1 10 true), .act (.add 2 20 true), .act (.add 3 30 true),
    .expire (fun _ => true), .act (.remove 2 (· == 20) false (some 7)), .poll]).bind (fun s => .ok (s.log, s.timed.length)) =
    .ok ([.added 0, .added 1, .added 2, .due 0, .due 1, .due 2, .onDelete 7 20, .freed 1, .ran 0, .freed 0, .ran 2,
      .freed 2], 0) := by decide +kernel

/-! ## What a removal removes -/

/-- Whether the removal concerns the callback. -/
def hit (fn : Nat) (p : Nat → Bool) (c : Cb) : Bool := c.fn == fn && p c.data

theorem removeLoop_skip (cur : Option Nat) (fn : Nat) (p : Nat → Bool) (all : Bool) (l : List Cb) (w : Bool) :
    ∀ (a : List Cb), (∀ c ∈ a, hit fn p c = false) →
    removeLoop cur fn p all (a ++ l) w =
      (a ++ (removeLoop cur fn p all l w).1, (removeLoop cur fn p all l w).2.1, (removeLoop cur fn p all l w).2.2)
  | [], _ => rfl
  | c :: a, h => by
    have hc := h c (List.mem_cons_self ..)
    have ih := removeLoop_skip cur fn p all l w a (fun d hd => h d (List.mem_cons_of_mem _ hd))
    rw [List.cons_append, removeLoop, if_pos]
    · rw [ih]; rfl
    · unfold hit at hc
      simp only [Bool.and_eq_false_iff, beq_eq_false_iff_ne] at hc
      rcases hc with hc | hc
      · exact Or.inl hc
      · exact Or.inr (by simp [hc])

theorem hit_not {fn p c} (h : hit fn p c = true) : ¬ (c.fn ≠ fn ∨ ¬ p c.data = true) := by
  unfold hit at h
  simp only [Bool.and_eq_true, beq_iff_eq] at h
  rintro (h' | h')
  · exact h' h.1
  · exact h' h.2

/-- Removing one callback removes the first that matches, calls `on_delete` for it, and
leaves all others in their order. -/
theorem remove_one (s : St) (fn : Nat) (p : Nat → Bool) (o : Option Nat) (a b : List Cb) (c : Cb)
    (h : s.timed = a ++ c :: b) (ha : ∀ d ∈ a, ¬ (d.fn = fn ∧ p d.data = true)) (hc : c.fn = fn ∧ p c.data = true)
    (hcur : s.cur ≠ some c.id) :
    let s' := act s (.remove fn p false o)
    s'.timed = a ++ b ∧ s'.obs = s.obs ∧ s'.curDel = s.curDel ∧
    s'.log = s.log ++ ((match o with | none => [] | some f => [.onDelete f c.data]) ++ [.freed c.id]) := by
  have hl : removeLoop s.cur fn p false s.timed false = (a ++ b, [c], false) := by
    rw [h, removeLoop_skip, removeLoop, if_neg (hit_not (by simp [hit, hc])), if_neg hcur]
    · rfl
    · intro d hd
      have := ha d hd
      unfold hit
      simp only [Bool.and_eq_false_iff, beq_eq_false_iff_ne]
      by_cases hf : d.fn = fn
      · exact Or.inr (by simpa using fun hp => this ⟨hf, hp⟩)
      · exact Or.inl hf
  simp only [act, removeTimed, hl]
  refine ⟨rfl, rfl, rfl, ?_⟩
  simp only [List.flatMap_cons, List.flatMap_nil, List.append_nil]
  rfl

/-- If no callback matches, nothing is removed. -/
theorem remove_nothing (s : St) (fn : Nat) (p : Nat → Bool) (all : Bool) (o : Option Nat)
    (ha : ∀ d ∈ s.timed, ¬ (d.fn = fn ∧ p d.data = true)) : act s (.remove fn p all o) = s := by
  have hl : removeLoop s.cur fn p all s.timed false = (s.timed, [], false) := by
    have := removeLoop_skip s.cur fn p all [] false s.timed (by
      intro d hd
      have := ha d hd
      unfold hit
      simp only [Bool.and_eq_false_iff, beq_eq_false_iff_ne]
      by_cases hf : d.fn = fn
      · exact Or.inr (by simpa using fun hp => this ⟨hf, hp⟩)
      · exact Or.inl hf)
    rw [List.append_nil] at this
    rw [this]
    simp [removeLoop]
  simp [act, removeTimed, hl]

theorem removeLoop_all (cur : Option Nat) (fn : Nat) (p : Nat → Bool) : ∀ (l : List Cb) (w : Bool),
    (removeLoop cur fn p true l w).1 = l.filter (fun c => !hit fn p c || cur == some c.id) ∧
    (removeLoop cur fn p true l w).2.1 = l.filter (fun c => hit fn p c && cur != some c.id)
  | [], _ => ⟨rfl, rfl⟩
  | c :: l, w => by
    rw [removeLoop]
    by_cases hh : hit fn p c = true
    · rw [if_neg (hit_not hh)]
      by_cases hc : cur = some c.id
      · rw [if_pos hc]
        have ih := removeLoop_all cur fn p l true
        have k1 : (!hit fn p c || cur == some c.id) = true := by simp [hc]
        have k2 : ¬ (hit fn p c && cur != some c.id) = true := by simp [hc]
        rw [if_pos rfl, List.filter_cons_of_pos (a := c) k1, List.filter_cons_of_neg (a := c) k2]
        exact ⟨congrArg _ ih.1, ih.2⟩
      · rw [if_neg hc]
        have ih := removeLoop_all cur fn p l false
        simp [hh, hc, ih.1, ih.2]
    · have hh : hit fn p c = false := by simpa using hh
      rw [if_pos]
      · have ih := removeLoop_all cur fn p l w
        simp [hh, ih.1, ih.2]
      · unfold hit at hh
        simp only [Bool.and_eq_false_iff, beq_eq_false_iff_ne] at hh
        rcases hh with hh | hh
        · exact Or.inl hh
        · exact Or.inr (by simp [hh])

/-- Removing all matching callbacks removes exactly those that match, except the one
that is being processed, and calls `on_delete` for each of them in order. -/
theorem remove_all (s : St) (fn : Nat) (p : Nat → Bool) (o : Option Nat) :
    let s' := act s (.remove fn p true o)
    let m := fun c : Cb => c.fn = fn ∧ p c.data = true ∧ s.cur ≠ some c.id
    s'.timed = s.timed.filter (fun c => ¬ m c) ∧ s'.obs = s.obs ∧
    s'.log = s.log ++ (s.timed.filter (fun c => m c)).flatMap fun c =>
      (match o with | none => [] | some f => [.onDelete f c.data]) ++ [.freed c.id] := by
  have hl := removeLoop_all s.cur fn p s.timed false
  have e1 : s.timed.filter (fun c => !hit fn p c || s.cur == some c.id) =
      s.timed.filter (fun c => ¬ (c.fn = fn ∧ p c.data = true ∧ s.cur ≠ some c.id)) := by
    apply List.filter_congr
    intro c _
    unfold hit
    by_cases h1 : c.fn = fn <;> by_cases h2 : p c.data = true <;> by_cases h3 : s.cur = some c.id <;> simp [h1, h2, h3]
  have e2 : s.timed.filter (fun c => hit fn p c && s.cur != some c.id) =
      s.timed.filter (fun c => c.fn = fn ∧ p c.data = true ∧ s.cur ≠ some c.id) := by
    apply List.filter_congr
    intro c _
    unfold hit
    by_cases h1 : c.fn = fn <;> by_cases h2 : p c.data = true <;> by_cases h3 : s.cur = some c.id <;> simp [h1, h2, h3]
  dsimp only
  rw [← e1, ← e2, ← hl.1, ← hl.2]
  simp only [act, removeTimed]
  split
  · exact ⟨rfl, rfl, rfl⟩
  · exact ⟨rfl, rfl, rfl⟩

/-- Non-trivial: of four callbacks two match. -/
example : (run (quiet true) init [.act (.add 1 10 true), .act (.add 2 20 true), .act (.add 1 30 true), .act (.add 1 11 true),
    .act (.remove 1 (· < 20) true (some 7))]).bind (fun s => .ok (s.log, s.timed.map (·.id))) =
    .ok ([.added 0, .added 1, .added 2, .added 3, .onDelete 7 10, .freed 0, .onDelete 7 11, .freed 3], [1, 2]) := by
  decide +kernel

theorem act_cur (s : St) (a : Act) : (act s a).cur = s.cur := by
  cases a with
  | add fn d ok => simp only [act]; split <;> rfl
  | remove fn p all o => simp only [act, removeTimed]; split <;> rfl
  | resAdd r => simp only [act]; split <;> rfl
  | resDel r => rfl
  | register r ok =>
    simp only [act]
    split
    · unfold obsAdd
      split
      · rfl
      split <;> rfl
    · rfl
  | unregister r =>
    simp only [act]
    split
    · unfold obsRemove
      split <;> rfl
    · rfl

theorem act_curDel (s : St) (a : Act) (h : s.curDel = true) : (act s a).curDel = true := by
  cases a with
  | add fn d ok => simp only [act]; split <;> exact h
  | remove fn p all o => simp only [act, removeTimed]; split <;> first | rfl | exact h
  | resAdd r => simp only [act]; split <;> exact h
  | resDel r => exact h
  | register r ok =>
    simp only [act]
    split
    · unfold obsAdd
      split
      · exact h
      split <;> exact h
    · exact h
  | unregister r =>
    simp only [act]
    split
    · unfold obsRemove
      split <;> exact h
    · exact h

theorem acts_cur : ∀ (b : List Act) (s : St), (b.foldl act s).cur = s.cur
  | [], _ => rfl
  | a :: b, s => by rw [List.foldl_cons, acts_cur b, act_cur]

theorem acts_curDel : ∀ (b : List Act) (s : St), s.curDel = true → (b.foldl act s).curDel = true
  | [], _, h => h
  | a :: b, s, h => by rw [List.foldl_cons]; exact acts_curDel b _ (act_curDel s a h)

/-- A callback that removes itself (with any calls before and after) is released when it
returns, also if it asks to be run again.  `s` is the state before the callback; `sp` is
the state after the calls before the removal, where the callback is the first that
matches. -/
theorem remove_self (s s1 s2 : St) (c : Cb) (pre post : List Act) (fn : Nat) (p : Nat → Bool) (o : Option Nat) (dn : Bool)
    (a b : List Cb)
    (hp : (pre.foldl act { s with cur := some c.id, curDel := false, runs := s.runs + 1, log := s.log ++ [.ran c.id] }).timed = a ++ c :: b)
    (ha : ∀ d ∈ a, ¬ (d.fn = fn ∧ p d.data = true)) (hc : c.fn = fn ∧ p c.data = true)
    (h1 : invoke false (pre ++ .remove fn p false o :: post) c s = .ok s1) (h2 : finish false dn c s1 = .ok s2) :
    (∀ d ∈ s2.timed, d.id ≠ c.id) ∧ .freed c.id ∈ s2.log := by
  unfold invoke at h1
  rw [if_neg (by simp)] at h1
  injection h1 with h1
  rw [List.foldl_append, List.foldl_cons] at h1
  have hcur := acts_cur pre { s with cur := some c.id, curDel := false, runs := s.runs + 1, log := s.log ++ [.ran c.id] }
  generalize pre.foldl act _ = sp at *
  have hl : removeLoop sp.cur fn p false sp.timed false = (a ++ c :: b, [], true) := by
    rw [hp, removeLoop_skip, removeLoop, if_neg (hit_not (by simp [hit, hc])), if_pos hcur]
    · rfl
    · intro d hd
      have := ha d hd
      unfold hit
      simp only [Bool.and_eq_false_iff, beq_eq_false_iff_ne]
      by_cases hf : d.fn = fn
      · exact Or.inr (by simpa using fun hp => this ⟨hf, hp⟩)
      · exact Or.inl hf
  have hdel : s1.curDel = true := by
    rw [← h1]
    apply acts_curDel
    simp only [act, removeTimed, hl]
    rfl
  unfold finish at h2
  split at h2
  · cases h2
  rw [if_pos (Or.inr hdel)] at h2
  injection h2 with h2
  subst h2
  refine ⟨?_, ?_⟩
  · intro d hd
    have := (List.mem_filter.1 hd).2
    simpa using this
  · show _ ∈ s1.log ++ removedLog s1.onDel c
    rw [List.mem_append]
    exact Or.inr (by unfold removedLog; simp)

/-- Non-trivial: the callback removes itself and returns CONTINUE. -/
example : (run (fun _ => ([.add 5 50 true, .remove 1 (· == 10) false none], false)) init [.act (.add 1 10 true),
    .expire (fun _ => true), .poll]).bind (fun s => .ok (s.log, s.timed.map (·.id))) =
    .ok ([.added 0, .due 0, .ran 0, .added 1, .freed 0], [1]) := by decide +kernel

/-! ## `on_delete` and removing the callback being processed -/

/-- Removing with `on_delete` from inside a callback makes the library apply that function
to the data of a later callback that has nothing to do with the removal: callback 0
(data 10) removes itself with `on_delete` 7, then callback 1 (data 20) is done and 7 is
applied to 20, e.g. freeing memory that is not its own
(`g_currently_processed_event_on_delete` is not reset before each callback,
oc_event_callback.c:206-213). -/
theorem stale_on_delete_false :
    (run (fun n => if n = 0 then ([.remove 1 (· == 10) false (some 7)], true) else ([], true)) init
      [.act (.add 1 10 true), .act (.add 2 20 true), .expire (fun _ => true), .poll]).bind (fun s => .ok s.log) =
    .ok [.added 0, .added 1, .due 0, .due 1, .ran 0, .onDelete 7 10, .freed 0, .ran 1, .onDelete 7 20, .freed 1] := by
  decide +kernel

/-- A callback that removes all callbacks that match, itself included, is not removed
itself if another matching one follows in the list: it is kept and runs again
(`want_to_delete_currently_processed_event_cb` is set to false by the later match,
oc_event_callback.c:133-147). -/
theorem match_all_keeps_current_false :
    (run (fun n => if n = 0 then ([.remove 1 (fun _ => true) true none], false) else ([], true)) init
      [.act (.add 1 10 true), .act (.add 1 20 true), .expire (· == 0), .poll, .expire (fun _ => true), .poll]).bind
      (fun s => .ok s.log) =
    .ok [.added 0, .added 1, .due 0, .ran 0, .freed 1, .due 0, .ran 0, .freed 0] := by
  decide +kernel

/-- The calls of a callback do not remove anything with `on_delete`. -/
def NoOnDelete : Act → Prop
  | .remove _ _ _ (some _) => False
  | _ => True

theorem removed_none (R : List Cb) (f d : Nat) : Ev.onDelete f d ∉ R.flatMap (removedLog none) := by
  intro h
  obtain ⟨c, _, h⟩ := List.mem_flatMap.1 h
  simp [removedLog] at h

theorem act_noOnDelete (s : St) (a : Act) (h : NoOnDelete a) (h0 : s.onDel = none) (f d : Nat) :
    (act s a).onDel = none ∧ (act s a).log.count (.onDelete f d) = s.log.count (.onDelete f d) := by
  cases a with
  | add fn d ok => simp only [act]; split <;> simp [addTimed, h0]
  | remove fn p all o =>
    cases o with
    | some g => exact h.elim
    | none =>
      have := List.count_eq_zero.2 (removed_none (removeLoop s.cur fn p all s.timed false).2.1 f d)
      simp only [act, removeTimed]
      split
      · exact ⟨rfl, by show List.count _ (s.log ++ _) = _; rw [List.count_append, this, Nat.add_zero]⟩
      · exact ⟨h0, by show List.count _ (s.log ++ _) = _; rw [List.count_append, this, Nat.add_zero]⟩
  | resAdd r => simp only [act]; split <;> exact ⟨h0, rfl⟩
  | resDel r => exact ⟨h0, rfl⟩
  | register r ok =>
    simp only [act]
    split
    · unfold obsAdd
      split
      · exact ⟨h0, rfl⟩
      split
      · refine ⟨h0, ?_⟩
        show List.count _ (s.log ++ _) = _
        rw [List.count_append]; simp
      · exact ⟨h0, rfl⟩
    · exact ⟨h0, rfl⟩
  | unregister r =>
    simp only [act]
    split
    · unfold obsRemove
      split
      · exact ⟨h0, rfl⟩
      · refine ⟨h0, ?_⟩
        show List.count _ (s.log ++ _) = _
        rw [List.count_append]; simp
    · exact ⟨h0, rfl⟩

theorem acts_noOnDelete (f d : Nat) : ∀ (b : List Act) (s : St), (∀ a ∈ b, NoOnDelete a) → s.onDel = none →
    (b.foldl act s).onDel = none ∧ (b.foldl act s).log.count (.onDelete f d) = s.log.count (.onDelete f d)
  | [], _, _, h0 => ⟨h0, rfl⟩
  | a :: b, s, h, h0 => by
    have h1 := act_noOnDelete s a (h a (List.mem_cons_self ..)) h0 f d
    have := acts_noOnDelete f d b (act s a) (fun x hx => h x (List.mem_cons_of_mem _ hx)) h1.1
    rw [List.foldl_cons]
    exact ⟨this.1, this.2.trans h1.2⟩

theorem pollLoop_noOnDelete (beh : Nat → List Act × Bool) (hb : ∀ n, ∀ a ∈ (beh n).1, NoOnDelete a) (w : Bool) (f d : Nat) :
    ∀ (k : Nat) (s s' : St), s.onDel = none → pollLoop beh w k s = .ok s' →
      s'.onDel = none ∧ s'.log.count (.onDelete f d) = s.log.count (.onDelete f d)
  | 0, s, s', h0, e => by injection e with e; subst e; exact ⟨h0, rfl⟩
  | k + 1, s, s', h0, e => by
    rw [pollLoop] at e
    split at e
    · injection e with e; subst e; exact ⟨h0, rfl⟩
    · rename_i c hc
      cases e1 : invoke w (beh s.runs).1 c s with
      | ub => rw [e1] at e; cases e
      | ok s1 =>
        rw [e1, Out.bind] at e
        cases e2 : finish w (beh s.runs).2 c s1 with
        | ub => rw [e2] at e; cases e
        | ok s2 =>
          rw [e2, Out.bind] at e
          have h1 : s1.onDel = none ∧ s1.log.count (.onDelete f d) = s.log.count (.onDelete f d) := by
            unfold invoke at e1
            split at e1
            · cases e1
            · injection e1 with e1
              have := acts_noOnDelete f d (beh s.runs).1
                { s with cur := some c.id, curDel := false, runs := s.runs + 1, log := s.log ++ [.ran c.id] } (hb _) h0
              rw [e1] at this
              refine ⟨this.1, this.2.trans ?_⟩
              show List.count _ (s.log ++ _) = _
              rw [List.count_append]; simp
          have h2 : s2.onDel = none ∧ s2.log.count (.onDelete f d) = s1.log.count (.onDelete f d) := by
            unfold finish at e2
            split at e2
            · cases e2
            split at e2
            · injection e2 with e2
              subst e2
              rw [h1.1]
              refine ⟨by cases w <;> exact h1.1, ?_⟩
              show List.count _ (s1.log ++ _) = _
              rw [List.count_append]; simp [removedLog]
            · injection e2 with e2
              subst e2
              exact ⟨by cases w <;> exact h1.1, by cases w <;> rfl⟩
          have h3 := pollLoop_noOnDelete beh hb w f d k s2 s' h2.1 e
          exact ⟨h3.1, h3.2.trans (h2.2.trans h1.2)⟩

theorem pollTimers_noOnDelete {beh : Nat → List Act × Bool} (hb : ∀ n, ∀ a ∈ (beh n).1, NoOnDelete a) {w : Bool} (f d : Nat)
    {s s' : St} (h0 : s.onDel = none) (e : pollTimers beh w s = .ok s') :
    s'.onDel = none ∧ s'.log.count (.onDelete f d) = s.log.count (.onDelete f d) := by
  unfold pollTimers at e
  cases e1 : pollLoop beh w ((s.list w).filter (·.expired)).length s with
  | ub => rw [e1] at e; cases e
  | ok s1 =>
    rw [e1, Out.bind] at e
    injection e with e
    subst e
    exact ⟨rfl, (pollLoop_noOnDelete beh hb w f d _ s s1 h0 e1).2⟩

theorem poll_onDel {beh : Nat → List Act × Bool} {s s' : St} (e : poll beh s = .ok s') : s'.onDel = none := by
  unfold poll at e
  cases e1 : pollTimers beh true s with
  | ub => rw [e1] at e; cases e
  | ok s1 =>
    rw [e1, Out.bind] at e
    unfold pollTimers at e
    cases e2 : pollLoop beh false ((s1.list false).filter (·.expired)).length s1 with
    | ub => rw [e2] at e; cases e
    | ok s2 =>
      rw [e2, Out.bind] at e
      injection e with e
      subst e; rfl

/-- As long as no callback removes callbacks with `on_delete`, a poll calls no
`on_delete` function.  Partial: with such removals the claim "`on_delete` is called with
the data of the callbacks it was given for, and no others" fails
(`stale_on_delete_false`). -/
theorem poll_no_on_delete_partial (beh : Nat → List Act × Bool) (hb : ∀ n, ∀ a ∈ (beh n).1, NoOnDelete a)
    (s s' : St) (h0 : s.onDel = none) (h : poll beh s = .ok s') (f d : Nat) :
    s'.log.count (.onDelete f d) = s.log.count (.onDelete f d) := by
  unfold poll at h
  cases e1 : pollTimers beh true s with
  | ub => rw [e1] at h; cases h
  | ok s1 =>
    rw [e1, Out.bind] at h
    have h1 := pollTimers_noOnDelete hb f d h0 e1
    exact (pollTimers_noOnDelete hb f d h1.1 h).2.trans h1.2

example : ∀ a ∈ [Act.add 1 2 true, .remove 1 (· == 2) false none], NoOnDelete a := by
  intro a ha
  simp at ha
  rcases ha with rfl | rfl <;> trivial

/-! ## No undefined behaviour, under preconditions -/

/-- Calls after which periodic callbacks still refer to an existing resource. -/
def KeepsResources : Act → Prop
  | .resDel _ => False
  | _ => True

/-- Calls that a callback may make: observations are cancelled by requests only. -/
def InCallback : Act → Prop
  | .resDel _ => False
  | .unregister _ => False
  | _ => True

theorem InCallback.keeps {a : Act} (h : InCallback a) : KeepsResources a := by cases a <;> first | exact h.elim | trivial

theorem act_resources (s : St) (a : Act) (ha : KeepsResources a) (h : ∀ c ∈ s.obs, c.data ∈ s.res) :
    ∀ c ∈ (act s a).obs, c.data ∈ (act s a).res := by
  cases a with
  | add fn d ok => simp only [act]; split <;> exact h
  | remove fn p all o => simp only [act, removeTimed]; split <;> exact h
  | resAdd r =>
    simp only [act]
    split
    · exact h
    · exact fun c hc => List.mem_cons_of_mem _ (h c hc)
  | resDel r => exact ha.elim
  | register r ok =>
    simp only [act]
    split
    · rename_i hr
      unfold obsAdd
      split
      · exact h
      split
      · intro c hc
        rcases List.mem_append.1 hc with hc | hc
        · exact h c hc
        · simp at hc; subst hc; exact hr
      · exact h
    · exact h
  | unregister r =>
    simp only [act]
    split
    · unfold obsRemove
      split
      · exact h
      · exact fun c hc => h c (List.mem_filter.1 hc).1
    · exact h

theorem acts_resources : ∀ (b : List Act) (s : St), (∀ a ∈ b, KeepsResources a) → (∀ c ∈ s.obs, c.data ∈ s.res) →
    ∀ c ∈ (b.foldl act s).obs, c.data ∈ (b.foldl act s).res
  | [], _, _, h => h
  | a :: b, s, hb, h => acts_resources b (act s a) (fun x hx => hb x (List.mem_cons_of_mem _ hx))
      (act_resources s a (hb a (List.mem_cons_self ..)) h)

theorem act_keeps (w : Bool) (s : St) (a : Act) (ha : InCallback a) (c : Cb) (hcur : s.cur = some c.id) (hc : c ∈ s.list w) :
    c ∈ (act s a).list w := by
  cases a with
  | add fn d ok =>
    simp only [act]
    split
    · cases w
      · exact List.mem_append_left _ hc
      · exact hc
    · exact hc
  | remove fn p all o =>
    have : c ∈ ({ s with timed := (removeLoop s.cur fn p all s.timed false).1 } : St).list w := by
      cases w
      · rw [hcur]
        exact removeLoop_cur c.id fn p all s.timed false c hc rfl
      · exact hc
    simp only [act, removeTimed]
    split
    · exact this
    · exact this
  | resAdd r => simp only [act]; split <;> exact hc
  | resDel r => exact ha.elim
  | register r ok =>
    simp only [act]
    split
    · unfold obsAdd
      split
      · exact hc
      split
      · cases w
        · exact hc
        · exact List.mem_append_left _ hc
      · exact hc
    · exact hc
  | unregister r => exact ha.elim

theorem acts_keep (w : Bool) (c : Cb) : ∀ (b : List Act) (s : St), (∀ a ∈ b, InCallback a) → s.cur = some c.id → c ∈ s.list w →
    c ∈ (b.foldl act s).list w
  | [], _, _, _, h => h
  | a :: b, s, hb, hcur, h => acts_keep w c b (act s a) (fun x hx => hb x (List.mem_cons_of_mem _ hx))
      (by rw [act_cur]; exact hcur) (act_keeps w s a (hb a (List.mem_cons_self ..)) c hcur h)

theorem finish_resources {w dn c s s'} (h : ∀ c ∈ s.obs, c.data ∈ s.res) (e : finish w dn c s = .ok s') :
    ∀ c ∈ s'.obs, c.data ∈ s'.res := by
  unfold finish at e
  split at e
  · cases e
  split at e
  · injection e with e
    subst e
    cases w
    · exact h
    · exact fun d hd => h d (List.mem_filter.1 hd).1
  · injection e with e
    subst e
    cases w
    · exact h
    · intro d hd
      obtain ⟨x, hx, rfl⟩ := List.mem_map.1 hd
      show (if x.id = c.id then _ else x).data ∈ _
      split
      · exact h x hx
      · exact h x hx

theorem pollLoop_ok (beh : Nat → List Act × Bool) (hb : ∀ n, ∀ a ∈ (beh n).1, InCallback a) (w : Bool) :
    ∀ (k : Nat) (s : St), (∀ c ∈ s.obs, c.data ∈ s.res) →
      ∃ s', pollLoop beh w k s = .ok s' ∧ ∀ c ∈ s'.obs, c.data ∈ s'.res
  | 0, s, h => ⟨s, rfl, h⟩
  | k + 1, s, h => by
    rw [pollLoop]
    split
    · exact ⟨s, rfl, h⟩
    · rename_i c hc
      have ⟨hm, _⟩ := find_list hc
      have e1 : ∃ s1, invoke w (beh s.runs).1 c s = .ok s1 ∧ c ∈ s1.list w ∧ ∀ c ∈ s1.obs, c.data ∈ s1.res := by
        unfold invoke
        rw [if_neg]
        · refine ⟨_, rfl, ?_, ?_⟩
          · exact acts_keep w c _ _ (hb _) rfl hm
          · exact acts_resources _ _ (fun a ha => (hb _ a ha).keeps) h
        · rintro ⟨hw, hr⟩
          subst hw
          exact hr (h c hm)
      obtain ⟨s1, e1, hk, hr⟩ := e1
      have e2 : ∃ s2, finish w (beh s.runs).2 c s1 = .ok s2 := by
        unfold finish
        rw [if_neg]
        · split
          · exact ⟨_, rfl⟩
          · exact ⟨_, rfl⟩
        · intro hall
          have := List.all_eq_true.1 hall c hk
          simp at this
      obtain ⟨s2, e2⟩ := e2
      rw [e1, Out.bind, e2, Out.bind]
      exact pollLoop_ok beh hb w k s2 (finish_resources hr e2)

theorem pollTimers_ok {beh : Nat → List Act × Bool} (hb : ∀ n, ∀ a ∈ (beh n).1, InCallback a) (w : Bool) (s : St)
    (h : ∀ c ∈ s.obs, c.data ∈ s.res) : ∃ s', pollTimers beh w s = .ok s' ∧ ∀ c ∈ s'.obs, c.data ∈ s'.res := by
  obtain ⟨s1, e1, h1⟩ := pollLoop_ok beh hb w ((s.list w).filter (·.expired)).length s h
  unfold pollTimers
  rw [e1, Out.bind]
  exact ⟨_, rfl, h1⟩

/-- Which operations the partial statement allows. -/
def Op.Keeps : Op → Prop
  | .act a => KeepsResources a
  | _ => True

theorem run_ok (beh : Nat → List Act × Bool) (hb : ∀ n, ∀ a ∈ (beh n).1, InCallback a) :
    ∀ (ops : List Op) (s : St), (∀ o ∈ ops, o.Keeps) → (∀ c ∈ s.obs, c.data ∈ s.res) → run beh s ops ≠ .ub
  | [], s, _, _ => by intro h; cases h
  | o :: ops, s, ho, h => by
    have : ∃ s1, step beh s o = .ok s1 ∧ ∀ c ∈ s1.obs, c.data ∈ s1.res := by
      cases o with
      | act a => exact ⟨_, rfl, act_resources s a (ho _ (List.mem_cons_self ..)) h⟩
      | expire w =>
        refine ⟨_, rfl, ?_⟩
        intro c hc
        obtain ⟨x, hx, rfl⟩ := List.mem_map.1 hc
        show (if w x.id = true then _ else x).data ∈ _
        split
        · exact h x hx
        · exact h x hx
      | poll =>
        obtain ⟨s1, e1, h1⟩ := pollTimers_ok hb true s h
        obtain ⟨s2, e2, h2⟩ := pollTimers_ok hb false s1 h1
        refine ⟨s2, ?_, h2⟩
        show (pollTimers beh true s).bind _ = _
        rw [e1, Out.bind, e2]
    obtain ⟨s1, e1, h1⟩ := this
    rw [run, e1, Out.bind]
    exact run_ok beh hb ops s1 (fun x hx => ho x (List.mem_cons_of_mem _ hx)) h1

/-- In every history in which no resource is deleted, no freed callback structure and no
freed resource is used, whatever the callbacks add and remove, themselves included.
Partial: deleting a resource that has a periodic callback is excluded
(`delete_periodic_resource_ub`). -/
theorem no_use_after_free_partial (beh : Nat → List Act × Bool) (hb : ∀ n, ∀ a ∈ (beh n).1, InCallback a)
    (ops : List Op) (ho : ∀ o ∈ ops, o.Keeps) : run beh init ops ≠ .ub :=
  run_ok beh hb ops init ho (fun _ h => (by cases h))

/-- Non-trivial: a callback that removes itself and adds others; a periodic resource. -/
example : (run (fun _ => ([.remove 1 (· == 10) false none, .add 1 10 true], false)) init
    [.act (.resAdd 3), .act (.register 3 true), .act (.add 1 10 true), .expire (fun _ => true), .poll]).bind
    (fun s => .ok (s.log, s.timed.map (·.id))) =
    .ok ([.added 0, .added 1, .due 1, .due 0, .ran 0, .freed 1, .added 2], [2]) := by decide +kernel

/-- A periodic resource that is observed is deleted; when its timer expires the library
uses the freed resource (`ri_delete_resource`, oc_ri.c:548-624, does not call
`oc_periodic_observe_callback_remove`; the handler dereferences its data,
oc_event_callback.c:236-237). -/
theorem delete_periodic_resource_ub (beh : Nat → List Act × Bool) :
    run beh init [.act (.resAdd 3), .act (.register 3 true), .act (.resDel 3), .expire (fun _ => true), .poll] = .ub := rfl

/-! ## Periodic observe callbacks -/

theorem act_unique (s : St) (a : Act) (h : (s.obs.map (·.data)).Nodup) : ((act s a).obs.map (·.data)).Nodup := by
  cases a with
  | add fn d ok => simp only [act]; split <;> exact h
  | remove fn p all o => simp only [act, removeTimed]; split <;> exact h
  | resAdd r => simp only [act]; split <;> exact h
  | resDel r => exact h
  | register r ok =>
    simp only [act]
    split
    · unfold obsAdd
      split
      · exact h
      · rename_i hn
        split
        · show ((s.obs ++ _).map (·.data)).Nodup
          rw [List.map_append, List.nodup_append]
          refine ⟨h, by simp, ?_⟩
          intro a ha b hb e
          simp at hb
          subst hb; subst e
          obtain ⟨c, hc, rfl⟩ := List.mem_map.1 ha
          exact hn (List.any_eq_true.2 ⟨c, hc, by simp⟩)
        · exact h
    · exact h
  | unregister r =>
    simp only [act]
    split
    · unfold obsRemove
      split
      · exact h
      · exact (List.filter_sublist.map _).nodup h
    · exact h

theorem acts_unique : ∀ (b : List Act) (s : St), (s.obs.map (·.data)).Nodup → ((b.foldl act s).obs.map (·.data)).Nodup
  | [], _, h => h
  | a :: b, s, h => acts_unique b _ (act_unique s a h)

theorem finish_unique {w dn c s s'} (h : (s.obs.map (·.data)).Nodup) (e : finish w dn c s = .ok s') :
    (s'.obs.map (·.data)).Nodup := by
  unfold finish at e
  split at e
  · cases e
  split at e
  · injection e with e
    subst e
    cases w
    · exact h
    · exact (List.filter_sublist.map _).nodup h
  · injection e with e
    subst e
    cases w
    · exact h
    · show ((reset c.id s.obs).map (·.data)).Nodup
      have : (reset c.id s.obs).map (·.data) = s.obs.map (·.data) := by
        unfold reset
        rw [List.map_map]
        apply List.map_congr_left
        intro x _
        show (if x.id = c.id then _ else x).data = x.data
        split <;> rfl
      rw [this]; exact h

theorem pollLoop_unique (beh : Nat → List Act × Bool) (w : Bool) : ∀ (k : Nat) (s s' : St), (s.obs.map (·.data)).Nodup →
    pollLoop beh w k s = .ok s' → (s'.obs.map (·.data)).Nodup
  | 0, s, s', h, e => by injection e with e; subst e; exact h
  | k + 1, s, s', h, e => by
    rw [pollLoop] at e
    split at e
    · injection e with e; subst e; exact h
    · rename_i c hc
      cases e1 : invoke w (beh s.runs).1 c s with
      | ub => rw [e1] at e; cases e
      | ok s1 =>
        rw [e1, Out.bind] at e
        cases e2 : finish w (beh s.runs).2 c s1 with
        | ub => rw [e2] at e; cases e
        | ok s2 =>
          rw [e2, Out.bind] at e
          refine pollLoop_unique beh w k s2 s' (finish_unique ?_ e2) e
          unfold invoke at e1
          split at e1
          · cases e1
          · injection e1 with e1
            subst e1
            exact acts_unique _ _ h

theorem pollTimers_unique {beh w s s'} (h : (s.obs.map (·.data)).Nodup) (e : pollTimers beh w s = .ok s') :
    (s'.obs.map (·.data)).Nodup := by
  unfold pollTimers at e
  cases e1 : pollLoop beh w ((s.list w).filter (·.expired)).length s with
  | ub => rw [e1] at e; cases e
  | ok s1 =>
    rw [e1, Out.bind] at e
    injection e with e
    subst e
    exact pollLoop_unique beh w _ s s1 h e1

theorem run_unique (beh : Nat → List Act × Bool) : ∀ (ops : List Op) (s s' : St), (s.obs.map (·.data)).Nodup →
    run beh s ops = .ok s' → (s'.obs.map (·.data)).Nodup
  | [], s, s', h, e => by injection e with e; subst e; exact h
  | o :: ops, s, s', h, e => by
    rw [run] at e
    cases e1 : step beh s o with
    | ub => rw [e1] at e; cases e
    | ok s1 =>
      rw [e1, Out.bind] at e
      refine run_unique beh ops s1 s' ?_ e
      cases o with
      | act a => injection e1 with e1; subst e1; exact act_unique s a h
      | expire w =>
        injection e1 with e1
        subst e1
        show ((expireList w s.obs).map (·.data)).Nodup
        have : (expireList w s.obs).map (·.data) = s.obs.map (·.data) := by
          unfold expireList
          rw [List.map_map]
          apply List.map_congr_left
          intro x _
          show (if w x.id = true then _ else x).data = x.data
          split <;> rfl
        rw [this]; exact h
      | poll =>
        have e1 : poll beh s = .ok s1 := e1
        unfold poll at e1
        cases e2 : pollTimers beh true s with
        | ub => rw [e2] at e1; cases e1
        | ok s2 =>
          rw [e2, Out.bind] at e1
          exact pollTimers_unique (pollTimers_unique h e2) e1

/-- For every history: a resource has at most one periodic callback, however many
observers registered. -/
theorem one_periodic_callback (beh : Nat → List Act × Bool) (ops : List Op) (s : St) (h : run beh init ops = .ok s) :
    ∀ c ∈ s.obs, ∀ d ∈ s.obs, c.data = d.data → c = d := by
  have hn := run_unique beh ops init s List.Pairwise.nil h
  have : ∀ (l : List Cb), (l.map (·.data)).Nodup → ∀ c ∈ l, ∀ d ∈ l, c.data = d.data → c = d := by
    intro l
    induction l with
    | nil => intro _ c h; cases h
    | cons x l ih =>
      intro hn c hc d hd e
      have ⟨n1, n2⟩ := List.nodup_cons.1 hn
      rcases List.mem_cons.1 hc with e1 | hc' <;> rcases List.mem_cons.1 hd with e2 | hd'
      · rw [e1, e2]
      · exact absurd (by show x.data ∈ _; rw [← e1, e]; exact List.mem_map_of_mem hd') n1
      · exact absurd (by show x.data ∈ _; rw [← e2, ← e]; exact List.mem_map_of_mem hc') n1
      · exact ih n2 c hc' d hd' e
  exact this s.obs hn

/-- Registering an observation of an existing resource leaves it with a periodic
callback if there is memory; cancelling one leaves it without. -/
theorem register_unregister (beh : Nat → List Act × Bool) (ops : List Op) (s : St) (h : run beh init ops = .ok s) (r : Nat)
    (hr : r ∈ s.res) :
    (∃ c ∈ (act s (.register r true)).obs, c.data = r) ∧
    (0 < s.observers r → ∀ c ∈ (act s (.unregister r)).obs, c.data ≠ r) := by
  constructor
  · simp only [act]
    rw [if_pos hr]
    unfold obsAdd
    split
    · rename_i hx
      obtain ⟨c, hc, he⟩ := List.any_eq_true.1 hx
      exact ⟨c, hc, by simpa using he⟩
    · refine ⟨⟨s.next, 0, r, false⟩, ?_, rfl⟩
      show _ ∈ s.obs ++ _
      simp
  · intro ho
    simp only [act]
    rw [if_pos ⟨hr, ho⟩]
    unfold obsRemove
    split
    · rename_i hf
      intro c hc
      have := List.find?_eq_none.1 hf c hc
      simpa using this
    · rename_i c hf
      intro d hd hde
      have ⟨hd1, hd2⟩ := List.mem_filter.1 hd
      have hc : c ∈ s.obs := List.mem_of_find?_eq_some hf
      have hce : c.data = r := by simpa using List.find?_some hf
      have := one_periodic_callback beh ops s h d hd1 c hc (hde.trans hce.symm)
      subst this
      simp at hd2

/-- Two clients observe a periodic resource, one cancels: the resource has an observer
but no periodic callback, so the remaining client gets no more periodic notifications
(oc_ri.c:969-971 removes the callback without looking at the other observers). -/
theorem other_observers_lose_periodic_false (beh : Nat → List Act × Bool) :
    (run beh init [.act (.resAdd 3), .act (.register 3 true), .act (.register 3 true), .act (.unregister 3)]).bind
      (fun s => .ok (s.observers 3, s.obs)) = .ok (1, []) := rfl

end Verif.Delayed
