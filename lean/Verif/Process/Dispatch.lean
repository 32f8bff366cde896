import Verif.Process.DispatchSweep
/-! # Properties of the scheduler -/
namespace Verif.Process.Dispatch

instance (s : St) (op : Op) : Decidable (Fine s op) := by
  unfold Fine
  split <;> infer_instance

instance decFineRun : ∀ (s : St) (ops : List Op), Decidable (FineRun s ops)
  | _, [] => .isTrue trivial
  | s, op :: ops =>
    have := decFineRun (step s op) ops
    by unfold FineRun; exact inferInstance

/-- Reached by a history in which nobody exits a process whose thread is running or that is exiting, and
only `oc_process_start` sends INIT. -/
def Reached (s : St) : Prop := ∃ ops, FineRun {} ops ∧ s = run {} ops

theorem good_of {s : St} (h : Reached s) : Good s := by
  obtain ⟨ops, h1, rfl⟩ := h
  exact good_run ops {} good_init h1

/-! ## Threads are called one at a time, and only between start and exit -/

theorem log_exitEnter (p : Pid) (c : Option Pid) (s : St) : (exitEnter p c s).log = s.log := by
  unfold exitEnter
  split
  · rfl
  · split <;> rfl

theorem log_tickBase (s : St) : (tickBase s).log = s.log := by
  unfold tickBase
  cases s.base with
  | event =>
    simp only
    cases s.queue with
    | nil => rfl
    | cons e q =>
      simp only
      cases e.p <;> rfl
  | idle => rfl
  | sweep q k =>
    cases q with
    | none => cases k <;> rfl
    | some q => simp only; split <;> rfl
  | sweepNext q k => rfl
  | bcast q ev d =>
    cases q with
    | none => rfl
    | some q => simp only; split <;> rfl
  | bcastNext q ev d => rfl

theorem log_act (s : St) (a : Act) : (act s a).log = s.log := by
  cases a with
  | post e => rfl
  | sync p ev d => rfl
  | poll p => simp only [act, poll]; split <;> rfl
  | exit p => exact log_exitEnter p s.cur s
  | start p d => simp only [act, start]; split <;> rfl
  | ret b =>
    simp only [act, ret]
    split
    · split
      · exact log_exitEnter _ _ _
      · rfl
    · rfl
    · rfl
  | run =>
    simp only [act]
    split
    · unfold runStart
      split <;> rfl
    · rfl

/-- A step calls at most one thread; it is that of a process that is started and has not been taken off,
and no call of it is active: threads are never re-entered and never called after their exit. -/
theorem calls_partial (s : St) (h : Reached s) (op : Op) :
    (step s op).log = s.log ∨
    ∃ p ev d, (step s op).log = s.log ++ [(p, ev, d)] ∧ p ∈ s.list ∧ p ∉ threads s.up ∧
      p ∉ exitThreads s.up := by
  have hg := (good_of h).agree
  cases op with
  | act a =>
    simp only [step]
    split
    · exact .inl (log_act s a)
    · exact .inl rfl
  | tick =>
    simp only [step, tick]
    cases hu : s.up with
    | nil => exact .inl (log_tickBase s)
    | cons f k =>
      have hw := hg.wf
      have hen := hg.en
      rw [hu] at hw hen
      cases f with
      | call p ev d =>
        simp only [tickFr]
        split
        · rename_i hr
          refine .inr ⟨p, ev, d, rfl, hg.c2 p (by rw [hr]; simp), fun hx => ?_, fun hx => ?_⟩
          · have := (hg.c1 p).2 (by rw [hu]; exact hx)
            rw [hr] at this
            cases this
          · have := (hg.c4 p (by rw [hu]; exact exitThreads_sub hw hx)).2
            rw [hr] at this
            cases this
        · exact .inl rfl
      | exiting p f c st =>
        have hp := hg.c4 p (by rw [hu]; simp [exitings])
        cases st with
        | «at» q =>
          cases q with
          | none => exact .inl rfl
          | some q => simp only [tickFr]; split <;> exact .inl rfl
        | after q => exact .inl rfl
        | self =>
          simp only [tickFr]
          split
          · refine .inr ⟨p, evExit, 0, rfl, hp.1, fun hx => ?_, fun hx => ?_⟩
            · have := (hg.c1 p).2 (by rw [hu]; exact hx)
              rw [hp.2] at this
              cases this
            · simp only [exitings, List.nodup_cons] at hen
              simp only [exitThreads] at hx
              simp only [Wf] at hw
              exact hen.1 (exitThreads_sub hw hx)
          · exact .inl rfl
        | unlink => exact .inl rfl
      | _ => exact .inl rfl
  | poll0 p => simp only [step]; split <;> exact .inl rfl
  | poll1 p => simp only [step]; split <;> exact .inl rfl
  | poll2 p => simp only [step]; split <;> exact .inl rfl

/-- Between two calls of `oc_process_run`, a process is reported as running exactly if it was started and
has not exited since. -/
theorem running_partial (s : St) (h : Reached s) (hu : s.up = []) (p : Pid) :
    s.state p ≠ .none ↔ p ∈ s.list := by
  have hg := (good_of h).agree
  refine ⟨hg.c2 p, fun hp hn => ?_⟩
  have := hg.c3 p hp hn
  rw [hu] at this
  simp [exitings] at this

/-! ## A thread that ended is not called again -/

theorem state_exitEnter (r : Pid) (c : Option Pid) (s : St) (p : Pid) (h : s.state p = .none) :
    (exitEnter r c s).state p = .none := by
  unfold exitEnter
  split
  · exact h
  · split
    · exact h
    · simp only [upd]
      split
      · rfl
      · exact h

theorem none_stays {s : St} (hg : Good s) (p : Pid) (h : s.state p = .none) (op : Op)
    (hn : ∀ d, op ≠ .act (.start p d)) : (step s op).state p = .none := by
  have ha := hg.agree
  cases op with
  | act a =>
    simp only [step]
    split
    · cases a with
      | post e => exact h
      | sync q ev d => exact h
      | poll q => simp only [act, poll]; split <;> exact h
      | exit q => exact state_exitEnter q s.cur s p h
      | start q d =>
        simp only [act, start]
        split
        · exact h
        · have hne : p ≠ q := fun hc => hn d (by rw [hc])
          simp only [upd, if_neg hne]
          exact h
      | ret b =>
        simp only [act, ret]
        split
        · rename_i q ev d k hu
          split
          · exact state_exitEnter q _ _ p h
          · have hne : p ≠ q := by
              intro hc
              have : s.state q = .called := (ha.c1 q).mpr (by rw [hu]; simp [threads])
              rw [← hc, h] at this
              cases this
            simp only [upd, if_neg hne]
            exact h
        · exact h
        · exact h
      | run =>
        simp only [act]
        split
        · simp only [runStart, sweepStart]
          split <;> exact h
        · exact h
    · exact h
  | tick =>
    simp only [step, tick]
    split
    · rename_i f k hu
      cases f with
      | call q ev d =>
        simp only [tickFr]
        split
        · rename_i hr
          have hne : p ≠ q := by
            intro hc
            rw [← hc, h] at hr
            cases hr
          simp only [upd, if_neg hne]
          exact h
        · exact h
      | thread q ev d => exact h
      | exitThread q => exact h
      | exiting q f c st =>
        simp only [tickFr]
        cases st with
        | «at» x =>
          cases x with
          | none => exact h
          | some y => simp only; split <;> exact h
        | after x => exact h
        | self => simp only; split <;> exact h
        | unlink => exact h
      | restore c => exact h
    · rename_i hu
      simp only [tickBase]
      cases hb : s.base with
      | idle => exact h
      | event =>
        simp only
        cases hq : s.queue with
        | nil => exact h
        | cons e q =>
          simp only
          have hi : e.ev ≠ evInit := hg.noInit e (by rw [hq]; simp)
          cases e.p with
          | none => exact h
          | some r => simp only [if_neg hi]; exact h
      | sweep x k =>
        cases x with
        | none => cases k <;> exact h
        | some q =>
          simp only
          split
          · have hq : q ∈ s.list := by
              have := sweepTop_of hg.swept.place
              simp only [SweepTop, hb] at this
              exact this.2 q rfl
            have hne : p ≠ q := by
              intro hc
              subst hc
              have := ha.c3 p hq h
              rw [hu] at this
              simp [exitings] at this
            simp only [upd, if_neg hne]
            exact h
          · exact h
      | sweepNext q k => exact h
      | bcast x ev d =>
        cases x with
        | none => exact h
        | some q =>
          simp only
          split
          · exact h
          · exact h
      | bcastNext q ev d => exact h
  | poll0 q => simp only [step]; split <;> exact h
  | poll1 q => simp only [step]; split <;> exact h
  | poll2 q => simp only [step]; split <;> exact h

theorem none_stays_run (p : Pid) : ∀ (ops : List Op) (s : St), Good s → FineRun s ops → s.state p = .none →
    (∀ d, Op.act (.start p d) ∉ ops) → (run s ops).state p = .none := by
  intro ops
  induction ops with
  | nil => intro s _ _ h _; exact h
  | cons op ops ih =>
    intro s hg hf h hn
    have h1 := none_stays hg p h op (fun d hc => hn d (by rw [hc]; exact List.mem_cons_self))
    exact ih (step s op) (good_step hg hf.1) hf.2 h1 fun d hc => hn d (List.mem_cons_of_mem _ hc)

/-- A process whose thread ended, or returned from an EXIT event, is reported as not running from then on
and is gone from the list when the scheduler is done with it, until it is started again. -/
theorem ended_leaves (s : St) (h : Reached s) (p ev d : Nat) (k : List Fr) (hu : s.up = .thread p ev d :: k)
    (e : Bool) (he : e = true ∨ ev = evExit) (ops : List Op) (hf : FineRun (step s (.act (.ret e))) ops)
    (hn : ∀ d, Op.act (.start p d) ∉ ops) :
    (run s (.act (.ret e) :: ops)).state p = .none ∧
      ((run s (.act (.ret e) :: ops)).up = [] → p ∉ (run s (.act (.ret e) :: ops)).list) := by
  have hg := good_of h
  have hc : s.state p = .called := (hg.agree.c1 p).mpr (by rw [hu]; simp [threads])
  have hl : p ∈ s.list := hg.agree.c2 p (by rw [hc]; decide)
  have ho : s.open = true := by simp [St.open, hu]
  have hs : (step s (.act (.ret e))).state p = .none := by
    simp only [step, ho, if_true, act, ret, hu, if_pos he, exitEnter]
    rw [if_neg (fun hx => hx hl), if_neg (by rw [hc]; decide)]
    exact upd_same _ _ _
  have hg1 : Good (step s (.act (.ret e))) := good_step hg trivial
  have h2 := none_stays_run p ops _ hg1 hf hs hn
  refine ⟨h2, fun hup hm => ?_⟩
  have hg2 := good_run ops _ hg1 hf
  have := hg2.agree.c3 p hm h2
  rw [show (run (step s (.act (.ret e))) ops).up = [] from hup] at this
  simp [exitings] at this

/-! ## Events are delivered in the order they were posted -/

/-- The events taken from the queue followed by those in it are those posted, in order; each that is
taken is delivered at once: -/
theorem events_in_order (s : St) (h : Reached s) : s.taken ++ s.queue = s.posted := (good_of h).fifo

/-- An event for a process is handed to its thread when it is taken, exactly if the process was started
and has not exited. -/
theorem event_delivered (s : St) (h : Reached s) (hu : s.up = []) (hb : s.base = .event) (p ev d : Nat)
    (q : List Ev) (hq : s.queue = ⟨some p, ev, d⟩ :: q) :
    let t := run s [.tick, .tick]
    t.taken = s.taken ++ [⟨some p, ev, d⟩] ∧ t.queue = q ∧
    (p ∈ s.list → t.log = s.log ++ [(p, ev, d)] ∧ t.up = [.thread p ev d]) ∧
    (p ∉ s.list → t.log = s.log ∧ t.up = [] ∧ t.base = .idle) := by
  have hg := good_of h
  have hi : ev ≠ evInit := hg.noInit ⟨some p, ev, d⟩ (by rw [hq]; simp)
  have h1 : step s .tick = { s with queue := q, taken := s.taken ++ [⟨some p, ev, d⟩], base := .idle,
                                    up := [.call p ev d] } := by
    simp only [step, tick, hu, tickBase, hb, hq, if_neg hi]
  simp only [run, List.foldl_cons, List.foldl_nil, h1]
  simp only [step, tick, tickFr]
  by_cases hp : p ∈ s.list
  · have hr : s.state p = .running := by
      cases hst : s.state p with
      | none => exact absurd hst ((running_partial s h hu p).2 hp)
      | running => rfl
      | called =>
        have := (hg.agree.c1 p).1 hst
        rw [hu] at this
        simp [threads] at this
    rw [if_pos hr]
    exact ⟨rfl, rfl, fun _ => ⟨rfl, rfl⟩, fun hx => absurd hp hx⟩
  · have hr : s.state p ≠ .running := fun hx => hp (hg.agree.c2 p (by rw [hx]; simp))
    rw [if_neg hr]
    exact ⟨rfl, rfl, fun hx => absurd hx hp, fun _ => ⟨rfl, rfl, rfl⟩⟩

/-! ## No request to be polled is lost -/

/-- Between two calls of `oc_process_run`, with no call of `oc_process_poll` under way in another thread:
if a process was asked to be polled, by any thread, and neither was polled nor exited since, the flag that
makes the next run poll is set (and `oc_process_nevents` is not zero, so the main loop does not sleep). -/
theorem poll_not_lost (s : St) (h : Reached s) (hu : s.base = .idle) (hp : s.pend1 = []) (p : Pid)
    (hr : p ∈ s.req) : s.gpoll = true ∧ s.needs p = true := by
  have hg := (good_of h).swept
  obtain ⟨r1, _, r3⟩ := hg.rq p hr
  refine ⟨?_, r1⟩
  rcases r3 with r | r | r
  · exact r
  · rw [hp] at r; cases r
  · simp [ahead, hu] at r

/-- Asking for a poll of a running process is recorded. -/
theorem poll_recorded (s : St) (h : Reached s) (ho : s.open = true) (p : Pid) (hp : s.state p ≠ .none) :
    p ∈ (step s (.act (.poll p))).req := by
  have hl := (good_of h).agree.c2 p hp
  simp [step, ho, act, poll, hp, hl]

theorem due_leaves {s : St} (h : Good s) {op : Op} {p : Pid} (hd : p ∈ s.due)
    (hn : p ∉ (step s op).due) :
    (op = .tick ∧ (run s [.tick, .tick]).log = s.log ++ [(p, evPoll, 0)]) ∨ p ∉ (step s op).list := by
  obtain ⟨hg, hs, _, _⟩ := h
  have hah := (hs.du p hd).1
  cases op with
  | act a =>
    have hx : ∀ q c (t : St), (exitEnter q c t).due = t.due := by
      intro q c t
      unfold exitEnter
      split
      · rfl
      · split <;> rfl
    refine absurd ?_ hn
    simp only [step]
    split
    · cases a with
      | post e => exact hd
      | sync p ev d => exact hd
      | poll p => simp only [act, poll]; split <;> exact hd
      | exit p => simp only [act, hx]; exact hd
      | start p d => simp only [act, start]; split <;> exact hd
      | ret b =>
        simp only [act, ret]
        split
        · split
          · rw [hx]; exact hd
          · exact hd
        · exact hd
        · exact hd
      | run =>
        simp only [act]
        split
        · rename_i hu
          simp [ahead, hu.2] at hah
        · exact hd
    · exact hd
  | tick =>
    simp only [step, tick] at hn ⊢
    cases hu : s.up with
    | nil =>
      rw [hu] at hn
      simp only at hn
      unfold tickBase at hn
      cases hb : s.base with
      | sweep q k =>
        rw [hb] at hn
        cases q with
        | none =>
          simp [ahead, hb, tailFrom] at hah
        | some q =>
          simp only at hn
          split at hn
          · rename_i hneeds
            have hqp : p = q := by
              apply Classical.byContradiction
              intro hne
              exact hn (by simpa using ⟨hd, hne⟩)
            subst hqp
            refine .inl ⟨trivial, ?_⟩
            have h1 : step s .tick = { s with needs := upd s.needs p false, state := upd s.state p .running,
                                              base := .sweepNext p k, up := [.call p evPoll 0],
                                              req := s.req.filter (· ≠ p), due := s.due.filter (· ≠ p) } := by
              simp only [step, tick, hu, tickBase, hb, hneeds, if_true]
            simp only [run, List.foldl_cons, List.foldl_nil, h1]
            simp [step, tick, tickFr, upd_same]
          · exact absurd hd hn
      | sweepNext q k => rw [hb] at hn; exact absurd hd hn
      | idle => rw [hb] at hn; exact absurd hd hn
      | event => simp [ahead, hb] at hah
      | bcast q ev d => simp [ahead, hb] at hah
      | bcastNext q ev d => simp [ahead, hb] at hah
    | cons f k =>
      rw [hu] at hn
      simp only at hn ⊢
      cases f with
      | call q ev d =>
        simp only [tickFr] at hn
        split at hn <;> exact absurd hd hn
      | exiting q f c st =>
        cases st with
        | «at» q =>
          cases q with
          | none => exact absurd hd hn
          | some q => simp only [tickFr] at hn; split at hn <;> exact absurd hd hn
        | after q => exact absurd hd hn
        | self => simp only [tickFr] at hn; split at hn <;> exact absurd hd hn
        | unlink =>
          have hqp : p = q := by
            apply Classical.byContradiction
            intro hne
            exact hn (by simpa [tickFr, unlink] using ⟨hd, hne⟩)
          subst hqp
          right
          simp only [tickFr, unlink]
          exact hg.nd.not_mem_erase
      | thread _ _ _ => exact absurd hd hn
      | exitThread _ => exact absurd hd hn
      | restore _ => exact absurd hd hn
  | poll0 q => simp only [step] at hn; split at hn <;> exact absurd hd hn
  | poll1 q => simp only [step] at hn; split at hn <;> exact absurd hd hn
  | poll2 q => simp only [step] at hn; split at hn <;> exact absurd hd hn

theorem due_run (p : Pid) : ∀ (ops : List Op) (s : St), Good s → FineRun s ops → p ∈ s.due →
    ahead (run s ops) = [] →
    ∃ a op b, ops = a ++ op :: b ∧
      ((op = .tick ∧ (run s (a ++ [.tick, .tick])).log = (run s a).log ++ [(p, evPoll, 0)]) ∨
        p ∉ (run s (a ++ [op])).list) := by
  intro ops
  induction ops with
  | nil =>
    intro s hg _ hd ha
    have := (hg.swept.du p hd).1
    simp only [run, List.foldl_nil] at ha
    rw [ha] at this
    cases this
  | cons op ops ih =>
    intro s hg hf hd ha
    by_cases hn : p ∈ (step s op).due
    · obtain ⟨a, o, b, h1, h2⟩ := ih (step s op) (good_step hg hf.1) hf.2 hn ha
      exact ⟨op :: a, o, b, by rw [h1]; rfl, h2⟩
    · exact ⟨[], op, ops, rfl, due_leaves hg hd hn⟩

/-- A process that was asked to be polled before `oc_process_run` is called: whatever the threads it calls
do, by the time its sweep is over the process has been handed the poll event or has exited. -/
theorem poll_delivered (s : St) (h : Reached s) (hu : s.up = []) (hb : s.base = .idle) (hgp : s.gpoll = true)
    (p : Pid) (hr : p ∈ s.req) (ops : List Op) (hf : FineRun (step s (.act .run)) ops)
    (he : ∀ k, (∀ q, (run s (.act .run :: ops)).base ≠ .sweep q k) ∧
      ∀ q, (run s (.act .run :: ops)).base ≠ .sweepNext q k) :
    ∃ a op b, ops = a ++ op :: b ∧
      ((op = .tick ∧ (run s (.act .run :: (a ++ [.tick, .tick]))).log =
          (run s (.act .run :: a)).log ++ [(p, evPoll, 0)]) ∨
        p ∉ (run s (.act .run :: (a ++ [op]))).list) := by
  have hg := good_of h
  have hopen : s.open = true := by simp [St.open, hu, hb]
  have h1 : step s (.act .run) = sweepStart .event s := by
    simp [step, hopen, act, hu, hb, runStart, hgp]
  have hd : p ∈ (step s (.act .run)).due := by rw [h1]; exact hr
  have ha : ahead (run (step s (.act .run)) ops) = [] := by
    unfold ahead
    split
    · rename_i q k hx
      exact absurd hx ((he k).1 q)
    · rename_i q k hx
      exact absurd hx ((he k).2 q)
    · rfl
  exact due_run p ops _ (good_step (op := .act .run) hg trivial) hf hd ha

/-- Start a process and let its thread handle INIT. -/
def started (p : Pid) : List Op := [.act (.start p 0), .tick, .act (.ret false), .tick]

/-- Two processes; the second is asked to be polled by another thread while the first handles an event and
posts one to the second. -/
def usual : List Op :=
  started 1 ++ started 2 ++
  [.act (.post ⟨some 1, 5, 7⟩), .act .run, .tick, .tick, .poll0 2, .act (.post ⟨some 2, 6, 8⟩), .poll1 2,
   .act (.poll 1), .act (.ret false), .poll2 2]

/-- Two processes; the thread of the second ends while it handles an event. -/
def ending : List Op :=
  started 1 ++ started 2 ++ [.act (.post ⟨some 2, 6, 8⟩), .act .run, .tick, .tick]

example : FineRun {} ending ∧ (run {} ending).up = [.thread 2 6 8] ∧ (run {} ending).list = [2, 1] ∧
    (run {} (ending ++ [.act (.ret true), .tick, .tick, .tick, .tick, .act (.ret false), .tick, .tick, .tick,
      .tick])).list = [1] ∧
    (run {} (ending ++ [.act (.ret true), .tick, .tick, .tick, .tick, .act (.ret false), .tick, .tick, .tick,
      .tick])).up = [] := by
  decide

example : FineRun {} usual ∧ (run {} usual).up = [] ∧ (run {} usual).base = .idle ∧
    2 ∈ (run {} usual).req ∧ (run {} usual).gpoll = true ∧ (run {} usual).pend1 = [] ∧
    (run {} usual).queue = [⟨some 2, 6, 8⟩] ∧ (run {} usual).list = [2, 1] := by
  decide

/-- After a run that polls both, before the event of the second process is taken. -/
def sweepOver : List Op :=
  [.tick, .tick, .act (.ret false), .tick, .tick, .tick, .act (.ret false), .tick, .tick]

example : FineRun (step (run {} usual) (.act .run)) sweepOver ∧
    (run {} (usual ++ .act .run :: sweepOver)).base = .event ∧
    (run {} (usual ++ .act .run :: sweepOver)).up = [] ∧
    (run {} (usual ++ .act .run :: sweepOver)).log.drop 3 = [(2, evPoll, 0), (1, evPoll, 0)] := by
  decide

/-! ## Uses for which it does not work -/

/-- A thread exits its own process with `oc_process_exit` (the documented way to end a process,
`util/oc_process.h` 409-419) and yields: `call_process` then marks the process as running again
(`util/oc_process.c` 229), so it is reported as running and its thread is called for events although it
was taken off the list. -/
theorem self_exit_false :
    let s := run {} ([.act (.start 1 0), .tick, .act (.exit 1), .tick, .tick, .tick, .tick, .tick,
      .act (.ret false), .tick, .act (.post ⟨some 1, 5, 7⟩), .act .run, .tick, .tick])
    s.list = [] ∧ s.log = [(1, evInit, 0), (1, 5, 7)] ∧ s.up = [.thread 1 5 7] := by
  decide

/-- A process sends a synchronous event to another, whose thread exits the sender: the sender's thread is
entered a second time for EXIT while its first call is active. -/
theorem exit_caller_false :
    let s := run {} (started 1 ++ started 2 ++ [.act (.post ⟨some 1, 5, 7⟩), .act .run, .tick, .tick,
      .act (.sync 2 6 0), .tick, .act (.exit 1), .tick, .tick, .tick, .tick, .tick, .tick, .tick, .tick])
    s.log.getLast? = some (1, evExit, 0) ∧ 1 ∈ threads s.up ∧ 1 ∈ exitThreads s.up := by
  decide

/-- The history of `broadcast_twice_false`. -/
def broadcastTwice : List Op :=
  started 1 ++ started 2 ++
  [.act (.post ⟨none, 5, 0⟩), .act .run, .tick, .tick, .tick, .act (.poll 2), .act (.ret false), .tick, .tick,
   .tick, .tick, .act (.exit 1), .tick, .tick, .tick, .tick, .tick, .tick, .tick, .act (.ret false), .tick] ++
  started 1 ++ [.act (.ret false), .tick, .tick, .tick, .act (.ret false), .tick, .tick, .tick]

/-- A broadcast is meant to reach each process once. Before it calls a process, `do_event` polls; if a poll
handler exits and restarts the process that is next, its successor is now the former first process, and
the broadcast goes through the list again (`util/oc_process.c` 321-330): here process 2 is handed the event
twice, without any use `Fine` excludes. -/
theorem broadcast_twice_false :
    FineRun {} broadcastTwice ∧ (run {} broadcastTwice).log.count (2, 5, 0) = 2 ∧
      (run {} broadcastTwice).posted = [⟨none, 5, 0⟩] := by
  decide

/-- The exit of a process is announced to its thread by EXIT unless the thread exits itself. But the current
process stays the one called last after `oc_process_run` (`util/oc_process.c` 223): if the program then
exits this process, as at shutdown (`api/oc_ri.c` 424-444), its thread is not told. -/
theorem exit_untold_false :
    let ops := started 1 ++ started 2 ++ [.act (.post ⟨some 1, 5, 7⟩), .act .run, .tick, .tick,
      .act (.ret false), .act (.exit 1), .tick, .tick, .act (.ret false), .tick, .tick, .tick, .tick, .tick, .tick]
    FineRun {} ops ∧ (run {} ops).list = [2] ∧ (run {} ops).up = [] ∧
      (run {} ops).log = [(1, evInit, 0), (2, evInit, 0), (1, 5, 7), (2, evExited, 1)] := by
  decide

/-- The other process, started last and not called since, is told. -/
example :
    let ops := started 1 ++ started 2 ++ [.act (.post ⟨some 1, 5, 7⟩), .act .run, .tick, .tick,
      .act (.ret false), .act (.exit 2), .tick, .tick, .tick, .tick, .act (.ret false), .tick, .tick, .tick,
      .act (.ret false), .tick]
    FineRun {} ops ∧ (run {} ops).list = [1] ∧ (run {} ops).up = [] ∧
      (run {} ops).log.drop 3 = [(1, evExited, 2), (2, evExit, 0)] := by
  decide

end Verif.Process.Dispatch
