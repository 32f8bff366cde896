import Verif.Session.Spec

/-! Properties of session events. -/

namespace Verif.Session

open Spec

/-! ### Lemmas -/

theorem ofKind_append (k : Kind) (a b : List (Kind × Nat)) : ofKind k (a ++ b) = ofKind k a ++ ofKind k b := by
  unfold ofKind
  rw [List.filter_append, List.map_append]

/-- The two lists hold what was added and not delivered. -/
structure Kept (s : St) : Prop where
  starts : ofKind .connected s.log ++ s.starts = ofKind .connected s.pushed
  ends : ofKind .disconnected s.log ++ s.ends = ofKind .disconnected s.pushed

/-- Whoever added something, somebody will look at it. -/
structure Woken (s : St) : Prop where
  starts : s.starts ≠ [] → s.d1 ≠ 0 ∨ s.need = true ∨ s.pc = .starts
  need : s.need = true → s.req = true ∨ s.d2 ≠ 0 ∨ s.pc = .scan
  ends : s.ends ≠ [] → s.d1 ≠ 0 ∨ s.need = true ∨ s.pc = .starts ∨ s.pc = .check ∨ s.sched ≠ 0 ∨ s.pc = .ending

theorem kept_main (s t : St) (h : Kept s) (hs : mainStep s = some t) : Kept t := by
  obtain ⟨r, i, st, en, d1, d2, n, q, pc, sc, pu, lg⟩ := s
  obtain ⟨h1, h2⟩ := h
  unfold mainStep at hs
  dsimp only at hs h1 h2
  cases pc with
  | idle =>
    dsimp only at hs
    split at hs
    · cases hs; exact ⟨h1, h2⟩
    · cases hs
  | scan =>
    dsimp only at hs
    split at hs <;> (cases hs; exact ⟨h1, h2⟩)
  | starts =>
    cases st with
    | nil => cases hs; exact ⟨h1, h2⟩
    | cons id l =>
      cases hs
      refine ⟨?_, ?_⟩
      · show ofKind _ (lg ++ _) ++ l = _
        rw [ofKind_append, ← h1, List.append_assoc]
        rfl
      · show ofKind _ (lg ++ _) ++ en = _
        rw [ofKind_append, ← h2, List.append_assoc]
        rfl
  | check => cases hs; exact ⟨h1, h2⟩
  | ending =>
    cases en with
    | nil => cases hs; exact ⟨h1, h2⟩
    | cons id l =>
      cases hs
      refine ⟨?_, ?_⟩
      · show ofKind _ (lg ++ _) ++ st = _
        rw [ofKind_append, ← h1, List.append_assoc]
        rfl
      · show ofKind _ (lg ++ _) ++ l = _
        rw [ofKind_append, ← h2, List.append_assoc]
        rfl

theorem kept_step (s t : St) (h : Kept s) (a : Act) (hs : step s a = some t) : Kept t := by
  unfold step at hs
  cases a with
  | event k id =>
    dsimp only at hs
    split at hs <;> (cases hs; exact ⟨h.starts, h.ends⟩)
  | push i =>
    dsimp only at hs
    split at hs
    · cases hs
    · next k id e =>
      cases hs
      cases k with
      | connected =>
        refine ⟨?_, ?_⟩
        · show _ ++ (s.starts ++ [id]) = ofKind _ (s.pushed ++ _)
          rw [ofKind_append, ← h.starts, List.append_assoc]
          rfl
        · show _ ++ s.ends = ofKind _ (s.pushed ++ _)
          rw [ofKind_append, ← h.ends]
          exact (List.append_nil _).symm
      | disconnected =>
        refine ⟨?_, ?_⟩
        · show _ ++ s.starts = ofKind _ (s.pushed ++ _)
          rw [ofKind_append, ← h.starts]
          exact (List.append_nil _).symm
        · show _ ++ (s.ends ++ [id]) = ofKind _ (s.pushed ++ _)
          rw [ofKind_append, ← h.ends, List.append_assoc]
          rfl
  | need =>
    dsimp only at hs
    split at hs
    · cases hs
    · split at hs <;> (cases hs; exact ⟨h.starts, h.ends⟩)
  | req =>
    dsimp only at hs
    split at hs
    · cases hs
    · cases hs; exact ⟨h.starts, h.ends⟩
  | other => cases hs; exact ⟨h.starts, h.ends⟩
  | main => exact kept_main s t h hs
  | timer =>
    dsimp only at hs
    split at hs
    · cases hs; exact ⟨h.starts, h.ends⟩
    · cases hs
  | exit =>
    dsimp only at hs
    split at hs
    · cases hs; exact ⟨h.starts, h.ends⟩
    · cases hs

theorem woken_step (s t : St) (hr : t.running = true) (h : s.running = true → Woken s) (a : Act)
    (hs : step s a = some t) : Woken t := by
  obtain ⟨r, i, st, en, d1, d2, n, q, pc, sc, pu, lg⟩ := s
  have hrun : r = true := by
    cases a <;> simp only [step, mainStep, put] at hs <;> (try split at hs) <;> (try split at hs) <;>
      (try split at hs) <;> simp_all <;> (first | (subst hs; simp_all; done) | skip)
    all_goals (obtain ⟨_, rfl⟩ := hs; simp_all)
  subst hrun
  obtain ⟨h1, h2, h3⟩ := h rfl
  dsimp only at h1 h2 h3
  cases a with
  | event k id => cases hs; exact ⟨h1, h2, h3⟩
  | push j =>
    simp only [step] at hs
    split at hs
    · cases hs
    · next k id e =>
      cases hs
      cases k with
      | connected => exact ⟨fun _ => Or.inl (Nat.succ_ne_zero _), h2, fun _ => Or.inl (Nat.succ_ne_zero _)⟩
      | disconnected => exact ⟨fun _ => Or.inl (Nat.succ_ne_zero _), h2, fun _ => Or.inl (Nat.succ_ne_zero _)⟩
  | need =>
    simp only [step] at hs
    split at hs
    · cases hs
    · cases hs
      exact ⟨fun _ => Or.inr (Or.inl rfl), fun _ => Or.inr (Or.inl (Nat.succ_ne_zero _)),
        fun _ => Or.inr (Or.inl rfl)⟩
  | req =>
    simp only [step] at hs
    split at hs
    · cases hs
    · cases hs
      exact ⟨h1, fun _ => Or.inl rfl, h3⟩
  | other => cases hs; exact ⟨h1, fun _ => Or.inl rfl, h3⟩
  | main =>
    simp only [step, mainStep] at hs
    cases pc with
    | idle =>
      dsimp only at hs
      split at hs
      · cases hs
        exact ⟨by simpa using h1, fun _ => Or.inr (Or.inr rfl), by simpa using h3⟩
      · cases hs
    | scan =>
      dsimp only at hs
      cases n with
      | true =>
        cases hs
        exact ⟨fun _ => Or.inr (Or.inr rfl), (fun x => by cases x), fun _ => Or.inr (Or.inr (Or.inl rfl))⟩
      | false =>
        cases hs
        exact ⟨by simpa using h1, (fun x => by cases x), by simpa using h3⟩
    | starts =>
      cases st with
      | nil =>
        cases hs
        exact ⟨fun x => absurd rfl x, by simpa using h2, fun _ => Or.inr (Or.inr (Or.inr (Or.inl rfl)))⟩
      | cons id l =>
        cases hs
        exact ⟨fun _ => Or.inr (Or.inr rfl), by simpa using h2, fun _ => Or.inr (Or.inr (Or.inl rfl))⟩
    | check =>
      cases hs
      refine ⟨by simpa using h1, by simpa using h2, ?_⟩
      intro x
      cases en with
      | nil => exact absurd rfl x
      | cons a b => exact Or.inr (Or.inr (Or.inr (Or.inr (Or.inl (Nat.succ_ne_zero _)))))
    | ending =>
      cases en with
      | nil =>
        cases hs
        exact ⟨by simpa using h1, by simpa using h2, fun x => absurd rfl x⟩
      | cons id l =>
        cases hs
        exact ⟨by simpa using h1, by simpa using h2, fun _ => Or.inr (Or.inr (Or.inr (Or.inr (Or.inr rfl))))⟩
  | timer =>
    simp only [step] at hs
    split at hs
    · next e =>
      obtain ⟨e1, _⟩ := e
      subst e1
      cases hs
      exact ⟨by simpa using h1, by simpa using h2, fun _ => Or.inr (Or.inr (Or.inr (Or.inr (Or.inr rfl))))⟩
    · cases hs
  | exit =>
    simp only [step] at hs
    split at hs
    · cases hs; cases hr
    · cases hs

theorem run_inv (l : List Act) : ∀ s t, Kept s → (s.running = true → Woken s) → run s l = some t →
    Kept t ∧ (t.running = true → Woken t) := by
  induction l with
  | nil => intro s t h1 h2 h; cases h; exact ⟨h1, h2⟩
  | cons a l ih =>
    intro s t h1 h2 h
    unfold run at h
    cases hs : step s a with
    | none => rw [hs] at h; cases h
    | some u =>
      rw [hs] at h
      exact ih u t (kept_step s u h1 a hs) (fun hr => woken_step s u hr h2 a hs) h

theorem init_kept : Kept init := ⟨rfl, rfl⟩
theorem init_woken : Woken init := ⟨fun h => absurd rfl h, fun h => (by cases h), fun h => absurd rfl h⟩

/-- The work left. -/
def pcWork : Pc → Nat
  | .idle => 0
  | .ending => 1
  | .check => 4
  | .starts => 5
  | .scan => 6

/-- The work left: an upper bound of the number of steps until nothing is left to do. -/
def work (s : St) : Nat :=
  s.starts.length + s.ends.length + pcWork s.pc + 3 * s.sched + (if s.req then 7 else 0) + 8 * s.d2 + 9 * s.d1 +
    11 * s.inflight.length

theorem work_step (s t : St) (a : Act) (hi : internal a = true) (hs : step s a = some t) : work t < work s := by
  obtain ⟨r, i, st, en, d1, d2, n, q, pc, sc, pu, lg⟩ := s
  cases a with
  | event k id => cases hi
  | other => cases hi
  | exit => cases hi
  | push j =>
    simp only [step] at hs
    split at hs
    · cases hs
    · next k id e =>
      cases hs
      have hj : j < i.length := by
        rw [List.getElem?_eq_some_iff] at e
        exact e.1
      have hl : (i.eraseIdx j).length + 1 = i.length := by
        rw [List.length_eraseIdx, if_pos hj]; omega
      cases k <;> cases q <;> simp only [work, put, List.length_append, List.length_cons, List.length_nil, if_true, Bool.false_eq_true, if_false] <;> omega
  | need =>
    simp only [step] at hs
    split at hs
    · cases hs
    · next h0 =>
      split at hs <;> cases hs <;> simp only [work] <;> omega
  | req =>
    simp only [step] at hs
    split at hs
    · cases hs
    · next h0 =>
      cases hs
      simp only [work]
      cases q <;> simp <;> omega
  | timer =>
    simp only [step] at hs
    split at hs
    · next e =>
      obtain ⟨e1, e2⟩ := e
      subst e1
      cases hs
      simp only [work, pcWork]
      omega
    · cases hs
  | main =>
    simp only [step, mainStep] at hs
    cases pc with
    | idle =>
      cases q with
      | true => cases hs; simp [work, pcWork]; omega
      | false => cases hs
    | scan =>
      dsimp only at hs
      split at hs <;> cases hs <;> simp only [work, pcWork] <;> omega
    | starts =>
      cases st with
      | nil => cases hs; simp only [work, pcWork]; omega
      | cons id l => cases hs; simp only [work, pcWork, List.length_cons]; omega
    | check =>
      cases hs
      simp only [work, pcWork]
      split <;> omega
    | ending =>
      cases en with
      | nil => cases hs; simp only [work, pcWork]; omega
      | cons id l => cases hs; simp only [work, pcWork, List.length_cons]; omega

/-! ### Delivery -/

/-- In every schedule the events of each kind are delivered in the order in which
they were added, none twice and none that was not added. -/
theorem exactly_once (l : List Act) (t : St) (h : run init l = some t) :
    ofKind .connected t.log ++ t.starts = ofKind .connected t.pushed ∧
    ofKind .disconnected t.log ++ t.ends = ofKind .disconnected t.pushed := by
  obtain ⟨hk, _⟩ := run_inv l init t init_kept (fun _ => init_woken) h
  exact ⟨hk.starts, hk.ends⟩

/-- In every schedule, if the process was not ended and no thread has anything left
to do, all events were delivered: none is forgotten whatever the interleaving. -/
theorem none_lost (l : List Act) (t : St) (h : run init l = some t) (hr : t.running = true) (hq : quiet t) :
    ofKind .connected t.log = ofKind .connected t.pushed ∧
    ofKind .disconnected t.log = ofKind .disconnected t.pushed ∧ t.inflight = [] := by
  obtain ⟨hk, hw⟩ := run_inv l init t init_kept (fun _ => init_woken) h
  have hw := hw hr
  obtain ⟨r, i, st, en, d1, d2, n, q, pc, sc, pu, lg⟩ := t
  have hr : r = true := hr
  subst hr
  have hm : mainStep _ = none := hq .main rfl
  have hpc : pc = .idle ∧ q = false := by
    unfold mainStep at hm
    dsimp only at hm
    cases pc with
    | idle => cases q with
      | true => cases hm
      | false => exact ⟨rfl, rfl⟩
    | scan =>
      dsimp only at hm
      split at hm <;> cases hm
    | starts => cases st <;> cases hm
    | check => cases hm
    | ending => cases en <;> cases hm
  obtain ⟨rfl, rfl⟩ := hpc
  have hd1 : d1 = 0 := by
    have := hq .need rfl
    simp only [step] at this
    by_cases h0 : d1 = 0
    · exact h0
    · rw [if_neg h0] at this; cases this
  have hd2 : d2 = 0 := by
    have := hq .req rfl
    simp only [step] at this
    by_cases h0 : d2 = 0
    · exact h0
    · rw [if_neg h0] at this; cases this
  have hsc : sc = 0 := by
    have := hq .timer rfl
    simp only [step] at this
    by_cases h0 : sc = 0
    · exact h0
    · rw [if_pos ⟨trivial, h0⟩] at this; cases this
  have hin : i = [] := by
    have := hq (.push 0) rfl
    cases i with
    | nil => rfl
    | cons x y => simp [step] at this
  subst hd1 hd2 hsc hin
  have hn : n = false := by
    cases n with
    | false => rfl
    | true => rcases hw.need rfl with h | h | h <;> simp at h
  subst hn
  have hst : st = [] := by
    cases st with
    | nil => rfl
    | cons a b =>
      rcases hw.starts (by simp) with h | h | h <;> simp at h
  have hen : en = [] := by
    cases en with
    | nil => rfl
    | cons a b =>
      rcases hw.ends (by simp) with h | h | h | h | h | h <;> simp at h
  subst hst hen
  obtain ⟨h1, h2⟩ := hk
  rw [List.append_nil] at h1 h2
  exact ⟨h1, h2, rfl⟩

/-- In every schedule, once no new events are raised only finitely many steps are
left, whatever the order in which the threads take them; so the state of `none_lost`
is always reached. -/
theorem settles (l : List Act) : ∀ s t, (∀ a ∈ l, internal a = true) → run s l = some t →
    l.length + work t ≤ work s := by
  induction l with
  | nil => intro s t _ h; cases h; simp
  | cons a l ih =>
    intro s t hi h
    unfold run at h
    cases hs : step s a with
    | none => rw [hs] at h; cases h
    | some u =>
      rw [hs] at h
      have h1 := work_step s u a (hi a (by simp)) hs
      have h2 := ih u t (fun x hx => hi x (by simp [hx])) h
      rw [List.length_cons]
      omega

/-- Two sessions; the second ends while the callback for the first one is due. -/
def exRun : List Act :=
  [.event .connected 1, .push 0, .need, .req, .event .disconnected 1, .push 0, .need, .req,
   .main, .main, .main, .main, .main, .timer, .main, .main]

example : ∃ t, run init exRun = some t ∧ t.running = true ∧ t.log = [(.connected, 1), (.disconnected, 1)] :=
  ⟨_, rfl, rfl, rfl⟩

/-- FALSE: of each session the connection is announced before the disconnection,
if the network raises them in this order. The two kinds wait in different lists,
and a delayed callback that is due for an earlier session also takes the
disconnection of a session whose connection still waits; that session then looks
connected for ever. -/
theorem order_false : ¬ ∀ (l : List Act) (t : St), run init l = some t → ordered t.pushed → ordered t.log := by
  intro h
  have := h [.event .connected 1, .push 0, .need, .req, .event .disconnected 1, .push 0, .need, .req,
      .main, .main, .main, .main, .main,
      .event .connected 2, .push 0, .event .disconnected 2, .push 0,
      .timer, .main, .main, .main, .need, .need, .req, .req, .main, .main, .main] _ rfl ?_
  · exact this 2 [(.connected, 1), (.disconnected, 1)] [(.connected, 2)] rfl (by decide)
  · intro id a b e
    have e : [(Kind.connected, 1), (.disconnected, 1), (.connected, 2), (.disconnected, 2)] = a ++ (.disconnected, id) :: b := e
    rcases a with _ | ⟨a0, _ | ⟨a1, _ | ⟨a2, _ | ⟨a3, a⟩⟩⟩⟩ <;> simp at e
    · obtain ⟨_, rfl, rfl⟩ := e; simp
    · obtain ⟨_, _, _, rfl, rfl⟩ := e; simp

/-- FALSE: every connection that was announced by the network while the process ran is
delivered, or at least not kept, after the end of the process. Connections
that wait when the process ends stay in the list for ever. -/
theorem exit_false : ¬ ∀ (l : List Act) (t : St), run init l = some t → quiet t → t.starts = [] := by
  intro h
  have := h [.event .connected 1, .push 0, .exit, .need, .main]
    ⟨false, [], [1], [], 0, 0, false, false, .idle, 0, [(.connected, 1)], []⟩ rfl ?_
  · cases this
  · intro a ha
    cases a with
    | event k id => cases ha
    | push i => rfl
    | need => rfl
    | req => rfl
    | other => cases ha
    | main => rfl
    | timer => rfl
    | exit => cases ha

/-- UNDEFINED BEHAVIOUR: the endpoint of an event is copied into the result of an
allocation that is not checked. -/
theorem no_memory_ub : startEvent false = .ub := rfl

/-! ### Callbacks -/

theorem after_some (c : Cb) (l : List Cb) (h : c ∈ l) : ∃ r, after c.id l = some r := by
  induction l with
  | nil => cases h
  | cons x l ih =>
    unfold after
    by_cases hx : x.id = c.id
    · rw [if_pos hx]; exact ⟨l, rfl⟩
    · rw [if_neg hx]
      rcases List.mem_cons.1 h with rfl | h
      · exact absurd rfl hx
      · exact ih h

theorem after_subset (id : Nat) (l r : List Cb) (h : after id l = some r) : ∀ x ∈ r, x ∈ l := by
  induction l with
  | nil => cases h
  | cons y l ih =>
    unfold after at h
    by_cases hy : y.id = id
    · rw [if_pos hy] at h; cases h; exact fun x hx => List.mem_cons_of_mem _ hx
    · rw [if_neg hy] at h
      exact fun x hx => List.mem_cons_of_mem _ (ih h x hx)

theorem keep_op (s : Cbs) (c : Cb) (h : c ∈ s.list) (op : Op) (hp : ∀ v1 d ig, op ≠ .remove v1 c.handler d ig) :
    c ∈ (applyOp s op).list := by
  cases op with
  | add v1 h' d => exact List.mem_append_left _ h
  | remove v1 h' d ig =>
    have hne : h' ≠ c.handler := fun e => hp v1 d ig (by rw [e])
    have : hit v1 h' d ig c = false := by
      unfold hit
      have : (c.handler == h') = false := by simpa using fun e => hne e.symm
      rw [this]; simp
    show c ∈ s.list.eraseP _
    exact (List.mem_eraseP_of_neg (by rw [this]; simp)).2 h

theorem keep_ops (ops : List Op) : ∀ (s : Cbs) (c : Cb), c ∈ s.list →
    (∀ op ∈ ops, ∀ v1 d ig, op ≠ .remove v1 c.handler d ig) → c ∈ (ops.foldl applyOp s).list := by
  induction ops with
  | nil => intro s c h _; exact h
  | cons op ops ih =>
    intro s c h hp
    exact ih _ c (keep_op s c h op (hp op (by simp))) fun o ho => hp o (by simp [ho])

/-- Handlers may add callbacks and remove those of other handlers while an event is
delivered: nothing freed is used. Part of the full claim (`remove_self_ub`). -/
theorem fire_safe_partial (beh : Nat → List Op) (hp : Polite beh) (n : Nat) : ∀ (s : Cbs) (c : Option Cb),
    (∀ x, c = some x → x ∈ s.list) → fire beh n s c ≠ some .ub := by
  induction n with
  | zero => intro s c _; cases c <;> simp [fire]
  | succ n ih =>
    intro s c hc
    cases c with
    | none => simp [fire]
    | some c =>
      have hin := keep_ops (beh c.handler) s c (hc c rfl) fun op ho => hp c.handler op ho
      obtain ⟨r, hr⟩ := after_some c _ hin
      unfold fire
      dsimp only
      rw [hr]
      dsimp only
      have := ih ((beh c.handler).foldl applyOp s) r.head? (fun x hx =>
        after_subset _ _ _ hr x (List.mem_of_mem_head? hx))
      cases hf : fire beh n ((beh c.handler).foldl applyOp s) r.head? with
      | none => simp
      | some o =>
        cases o with
        | ub => exact absurd hf this
        | ok x => simp

example : Polite (fun h => if h = 1 then [.remove true 2 0 true, .add false 3 0] else []) := by
  intro h op ho v1 d ig
  by_cases h1 : h = 1
  · subst h1
    simp at ho
    rcases ho with rfl | rfl
    · simp
    · simp
  · simp [h1] at ho

/-- UNDEFINED BEHAVIOUR: a handler that removes its own callback while it is called;
the link to the next callback is read from the freed item. -/
theorem remove_self_ub :
    fire (fun h => if h = 7 then [.remove false 7 0 false] else []) 5 ⟨[⟨0, false, 7, 0⟩, ⟨1, true, 8, 3⟩], 2⟩
      (some ⟨0, false, 7, 0⟩) = some .ub := by decide

/-- If the handlers leave the list as it is, an event is delivered to every
callback once, in the order in which they were added, with its own data. -/
theorem each_called (l : List Cb) (next n : Nat) (hn : (l.map (·.id)).Nodup) (hle : l.length ≤ n) :
    fire (fun _ => []) n ⟨l, next⟩ l.head? =
      some (.ok (l.map fun c => (c.handler, if c.v1 then c.data else 0), ⟨l, next⟩)) := by
  have key : ∀ (r pre : List Cb) (n : Nat), ((pre ++ r).map (·.id)).Nodup → r.length ≤ n →
      fire (fun _ => []) n ⟨pre ++ r, next⟩ r.head? =
        some (.ok (r.map fun c => (c.handler, if c.v1 then c.data else 0), ⟨pre ++ r, next⟩)) := by
    intro r
    induction r with
    | nil => intro pre n _ _; cases n <;> rfl
    | cons c r ih =>
      intro pre n hd hle
      cases n with
      | zero => simp at hle
      | succ n =>
        have haft : after c.id (pre ++ c :: r) = some r := by
          have hne : ∀ x ∈ pre, x.id ≠ c.id := by
            intro x hx e
            rw [List.map_append] at hd
            have := (List.nodup_append.1 hd).2.2 x.id (List.mem_map_of_mem hx) c.id (by simp)
            exact this e
          clear hd ih hle
          induction pre with
          | nil => unfold after; rw [List.nil_append]; simp
          | cons y pre ihp =>
            rw [List.cons_append]
            unfold after
            rw [if_neg (hne y (by simp))]
            exact ihp fun x hx => hne x (by simp [hx])
        have hih := ih (pre ++ [c]) n (by rw [List.append_assoc]; exact hd) (by simpa using hle)
        rw [List.append_assoc] at hih
        show fire (fun _ => []) (n + 1) ⟨pre ++ c :: r, next⟩ (some c) = _
        unfold fire
        dsimp only [List.foldl]
        rw [haft]
        dsimp only
        rw [show ([c] ++ r) = c :: r from rfl] at hih
        rw [hih]
        rfl
  exact key l [] n hn hle

example : (([⟨0, false, 7, 0⟩, ⟨1, true, 8, 3⟩] : List Cb).map (·.id)).Nodup := by decide

/-- Removing takes away exactly the first callback of that handler (and, for handlers
with data, with that data unless it is to be ignored); all others stay in order. -/
theorem remove_first (s : Cbs) (v1 ig : Bool) (h d : Nat) :
    (applyOp s (.remove v1 h d ig)).list = s.list ∧ (∀ c ∈ s.list, ¬ (c.v1 = v1 ∧ c.handler = h ∧
      (v1 = true → ig = false → c.data = d))) ∨
    ∃ a c b, s.list = a ++ c :: b ∧ (applyOp s (.remove v1 h d ig)).list = a ++ b ∧
      (c.v1 = v1 ∧ c.handler = h ∧ (v1 = true → ig = false → c.data = d)) ∧
      ∀ x ∈ a, ¬ (x.v1 = v1 ∧ x.handler = h ∧ (v1 = true → ig = false → x.data = d)) := by
  have hiff : ∀ c, hit v1 h d ig c = true ↔ (c.v1 = v1 ∧ c.handler = h ∧ (v1 = true → ig = false → c.data = d)) := by
    intro c
    unfold hit
    cases v1 <;> cases ig <;> simp [and_assoc]
  by_cases hex : ∃ c ∈ s.list, hit v1 h d ig c = true
  · right
    obtain ⟨c, hc, hh⟩ := hex
    obtain ⟨x, a, b, ha, hx, he, hr⟩ := List.exists_of_eraseP hc hh
    refine ⟨a, x, b, he, hr, (hiff x).1 hx, ?_⟩
    intro y hy hcon
    exact ha y hy ((hiff y).2 hcon)
  · left
    constructor
    · exact List.eraseP_of_forall_not fun x hx hh => hex ⟨x, hx, hh⟩
    · intro c hc hcon
      exact hex ⟨c, hc, (hiff c).2 hcon⟩

end Verif.Session
