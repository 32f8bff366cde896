import Verif.Dps.ProvLive

/-!
# Properties of the provisioning of a device by the plgd service
-/
namespace Verif.Dps.Prov

/-! ## The status tells the truth -/

/-- At any time, unless a full provisioning was asked for, the steps reported as done form a prefix of
time, owner, cloud, credentials, access control, and only the first missing step is reported as under
way. -/
theorem status_ordered (ops : List Op) (h : (run {} ops).force = false) : Tidy (run {} ops).fl := by
  rcases (truth_run ops {} (truth_of_empty rfl)).1 with h1 | h1
  · exact h1
  · rw [h] at h1
    cases h1

/-- A step reported as done was found done by the last start or an answer for it was applied since. -/
theorem status_truthful (ops : List Op) (x : Step) (h : (run {} ops).fl.has x = true) :
    x ∈ (run {} ops).got :=
  (truth_run ops {} (truth_of_empty rfl)).2 x h

/-- The step before a step. -/
def before : Step → List Step
  | .time => []
  | .owner => [.time]
  | .cloud => [.time, .owner]
  | .cred => [.time, .owner, .cloud]
  | .acl => [.time, .owner, .cloud, .cred]

theorem next_before {f : Fl} {x : Step} (h : f.next = some x) :
    f.has x = false ∧ ∀ y ∈ before x, f.has y = true := by
  refine ⟨next_some h, ?_⟩
  unfold Fl.next at h
  cases x <;> simp [before, Fl.has] <;> grind

theorem start_reqs (e : Env) (s : St) : (start e s).reqs = s.reqs := by
  unfold start
  split
  · rfl
  · split
    · rfl
    · split <;> rfl

theorem reprovision_reqs (e : Env) (s : St) : (reprovision e s).reqs = s.reqs := by
  unfold reprovision
  rw [start_reqs]
  rfl

theorem renewAgain_reqs (e : Env) (s : St) : (renewAgain e s).reqs = s.reqs := by
  unfold renewAgain
  split
  · rfl
  · exact reprovision_reqs e s

theorem finishSteps_reqs (e : Env) (s : St) : (finishSteps e s).reqs = s.reqs := by
  unfold finishSteps
  split
  · rfl
  · split
    · rfl
    · split
      · rfl
      · unfold startCloud
        split
        · rfl
        · split
          · rfl
          · unfold observerStart
            split
            · rfl
            · rw [reprovision_reqs]

theorem provision_reqs (e : Env) (s : St) : (provision e s).reqs = s.reqs := by
  have h : (applyForce s).reqs = s.reqs := by
    unfold applyForce
    split <;> rfl
  unfold provision provisionGo
  split
  · exact h
  · split
    · exact h
    · split
      · exact h
      · split <;> exact h

theorem handlerError_reqs (x : Step) (s : St) : (handlerError x s).reqs = s.reqs := by
  unfold handlerError
  split <;> rfl

theorem handler_reqs (e : Env) (x : Step) (a : Ans) (s : St) : (handler e x a s).reqs = s.reqs := by
  unfold handler handlerGo
  split
  · rfl
  · split
    · rw [handlerError_reqs]
    · cases a
      · rfl
      · rw [handlerError_reqs]
      · rfl
      · rfl

theorem renewHandler_reqs (e : Env) (a : Ans) (s : St) : (renewHandler e a s).reqs = s.reqs := by
  unfold renewHandler
  dsimp only
  split
  · rfl
  · split
    · rfl
    · split
      · rw [renewAgain_reqs]
      · rw [reprovision_reqs]
    · rw [renewAgain_reqs]

/-- A request for a step is sent only by the callback of the next step, in RFNOP, when every step before
it is done and it is not. -/
theorem asks_in_order (s : St) (op : Op) (x : Step) (h : .step x ∈ (step s op).reqs)
    (hn : .step x ∉ s.reqs) :
    (∃ e o, op = .fire .next e o ∧ e.rfnop = true) ∧ s.fl.has x = false ∧
      ∀ y ∈ before x, s.fl.has y = true := by
  have hout : ∀ t : St, t.reqs = s.reqs → .step x ∈ t.reqs → False := fun t ht hx => hn (ht ▸ hx)
  cases op with
  | start e =>
    simp only [step, start_reqs] at h
    exact (hn h).elim
  | stop => exact (hout _ rfl h).elim
  | restart e =>
    simp only [step, start_reqs] at h
    exact (hn h).elim
  | force => exact (hout _ rfl h).elim
  | connected =>
    simp only [step] at h
    split at h <;> exact (hn h).elim
  | disconnected e =>
    simp only [step, disconnected] at h
    split at h
    · exact (hn h).elim
    · split at h
      · exact (hn h).elim
      · split at h <;> exact (hn h).elim
  | cloudLost e =>
    simp only [step] at h
    split at h <;> exact (hn h).elim
  | ifUp =>
    simp only [step] at h
    split at h <;> exact (hn h).elim
  | cloudRun b => exact (hout _ rfl h).elim
  | reset => exact (hout _ rfl h).elim
  | answer r a e =>
    simp only [step] at h
    split at h
    · have : (answer e a r { s with reqs := s.reqs.erase r }).reqs = s.reqs.erase r := by
        cases r with
        | step y => exact handler_reqs e y a _
        | renew => exact renewHandler_reqs e a _
      rw [this] at h
      exact (hn (List.mem_of_mem_erase h)).elim
    · exact (hn h).elim
  | fire t e o =>
    simp only [step] at h
    split at h
    · have hrenew : ∀ t : St, t.reqs = s.reqs → .step x ∉ (renewFire e t).reqs := by
        intro t ht hx
        unfold renewFire at hx
        split at hx
        · exact hout _ ht hx
        · split at hx
          · rcases List.mem_append.1 hx with hx | hx
            · exact hout _ ht hx
            · cases List.mem_singleton.1 hx
          · rw [renewAgain_reqs] at hx
            exact hout _ ht hx
      cases t with
      | start =>
        simp only [fire, startFire] at h
        split at h <;> exact (hn h).elim
      | prov =>
        simp only [fire, provision_reqs] at h
        exact (hn h).elim
      | retry =>
        simp only [fire, provision_reqs] at h
        exact (hn h).elim
      | reprov =>
        simp only [fire, reprovision_reqs] at h
        exact (hn h).elim
      | renew => exact (hrenew { s with tm := s.tm.off .renew } rfl h).elim
      | renewRetry => exact (hrenew { s with tm := s.tm.off .renewRetry } rfl h).elim
      | uuid => exact (hn h).elim
      | obs =>
        simp only [fire, observeFire] at h
        split at h
        · rw [reprovision_reqs] at h
          exact (hn h).elim
        · split at h
          · exact (hn h).elim
          · cases o
            · exact (hn h).elim
            · exact (hn h).elim
            · dsimp only at h
              rw [reprovision_reqs] at h
              exact (hn h).elim
            · exact (hn h).elim
            · exact (hn h).elim
            · exact (hn h).elim
      | mgr =>
        simp only [fire, mgrFire] at h
        split at h <;> exact (hn h).elim
      | next =>
        simp only [fire, nextStep] at h
        split at h
        · rename_i y hy
          split at h
          · rename_i hb
            simp only [Bool.and_eq_true] at hb
            rcases List.mem_append.1 h with h | h
            · exact (hn h).elim
            · have hxy := List.mem_singleton.1 h
              injection hxy with hxy
              subst hxy
              exact ⟨⟨e, o, rfl, hb.1⟩, next_before hy⟩
          · exact (hn h).elim
        · rw [finishSteps_reqs] at h
          exact (hn h).elim
    · exact (hn h).elim

theorem start_cloud_eq (e : Env) (s : St) : (start e s).cloud = s.cloud := by
  unfold start
  split
  · rfl
  · split
    · rfl
    · split <;> rfl

theorem reprovision_cloud (e : Env) (s : St) (h : (reprovision e s).cloud = true) :
    s.cloud = true := by
  unfold reprovision at h
  rw [start_cloud_eq] at h
  simp only [stopAll, Bool.and_eq_true] at h
  exact h.1

theorem renewAgain_cloud (e : Env) (s : St) (h : (renewAgain e s).cloud = true) : s.cloud = true := by
  unfold renewAgain at h
  split at h
  · exact h
  · exact reprovision_cloud e s h

theorem provision_cloud (e : Env) (s : St) : (provision e s).cloud = s.cloud := by
  have h : (applyForce s).cloud = s.cloud := by
    unfold applyForce
    split <;> rfl
  unfold provision provisionGo
  split
  · exact h
  · split
    · exact h
    · split
      · exact h
      · split <;> exact h

theorem handler_cloud (e : Env) (x : Step) (a : Ans) (s : St) (h : (handler e x a s).cloud = true) :
    s.cloud = true := by
  have herr : ∀ t : St, (handlerError x t).cloud = t.cloud := by
    intro t
    unfold handlerError
    split <;> rfl
  unfold handler handlerGo at h
  split at h
  · exact h
  · split at h
    · rw [herr] at h
      exact h
    · cases a
      · simp only [handlerGood, effect, Bool.and_eq_true] at h
        exact h.1
      · dsimp only at h
        rw [herr] at h
        exact h
      · exact h
      · exact h

theorem renewHandler_cloud (e : Env) (a : Ans) (s : St) (h : (renewHandler e a s).cloud = true) :
    s.cloud = true := by
  unfold renewHandler at h
  dsimp only at h
  split at h
  · exact h
  · split at h
    · exact h
    · split at h
      · exact (renewAgain_cloud e _ h :)
      · exact (reprovision_cloud e _ h :)
    · exact (renewAgain_cloud e _ h :)

/-- Provisioning starts the cloud manager only when all five steps are done and no error is reported. -/
theorem cloud_only_when_complete (s : St) (op : Op) (h : (step s op).cloud = true)
    (hn : s.cloud = false) :
    op = .cloudRun true ∨
    ((∃ e o, op = .fire .next e o ∧ e.cloudCtx = true ∧ e.cloudStart = true) ∧
      s.fl.all = true ∧ s.fl.err = false) := by
  have hout : s.cloud = true → False := fun h => by rw [hn] at h; cases h
  cases op with
  | start e =>
    simp only [step] at h
    rw [start_cloud_eq] at h
    exact (hout h).elim
  | stop => exact (hout h).elim
  | restart e =>
    simp only [step] at h
    rw [start_cloud_eq] at h
    exact (hout h).elim
  | force => exact (hout h).elim
  | connected =>
    simp only [step] at h
    split at h <;> exact (hout h).elim
  | disconnected e =>
    simp only [step, disconnected] at h
    split at h
    · exact (hout h).elim
    · split at h
      · exact (hout h).elim
      · split at h <;> exact (hout h).elim
  | cloudLost e =>
    simp only [step] at h
    split at h <;> exact (hout h).elim
  | ifUp =>
    simp only [step] at h
    split at h <;> exact (hout h).elim
  | cloudRun b =>
    have : b = true := h
    exact Or.inl (by rw [this])
  | reset => exact (hout h).elim
  | answer r a e =>
    simp only [step] at h
    split at h
    · cases r with
      | step y => exact (hout (handler_cloud e y a _ h :)).elim
      | renew => exact (hout (renewHandler_cloud e a _ h :)).elim
    · exact (hout h).elim
  | fire t e o =>
    simp only [step] at h
    split at h
    · have hrenew : ∀ t : St, (renewFire e t).cloud = true → t.cloud = true := by
        intro t hx
        unfold renewFire at hx
        split at hx
        · exact hx
        · split at hx
          · exact hx
          · exact renewAgain_cloud e t hx
      cases t with
      | start =>
        simp only [fire, startFire] at h
        split at h <;> exact (hout h).elim
      | prov =>
        simp only [fire] at h
        rw [provision_cloud] at h
        exact (hout h).elim
      | retry =>
        simp only [fire] at h
        rw [provision_cloud] at h
        exact (hout h).elim
      | reprov => exact (hout (reprovision_cloud e _ h :)).elim
      | renew => exact (hout (hrenew _ h :)).elim
      | renewRetry => exact (hout (hrenew _ h :)).elim
      | uuid =>
        simp only [fire, uuidFire, Bool.and_eq_true] at h
        exact (hout h.1).elim
      | obs =>
        simp only [fire, observeFire] at h
        split at h
        · exact (hout (reprovision_cloud e _ h :)).elim
        · split at h
          · exact (hout h).elim
          · cases o
            · exact (hout h).elim
            · exact (hout h).elim
            · exact (hout (reprovision_cloud e _ h :)).elim
            · exact (hout h).elim
            · exact (hout h).elim
            · exact (hout h).elim
      | mgr =>
        simp only [fire, mgrFire] at h
        split at h <;> exact (hout h).elim
      | next =>
        simp only [fire, nextStep] at h
        split at h
        · split at h <;> exact (hout h).elim
        · rename_i hnx
          have hall : s.fl.all = true := next_none hnx
          unfold finishSteps at h
          split at h
          · exact (hout h).elim
          · rename_i herr
            split at h
            · exact (hout h).elim
            · split at h
              · exact (hout h).elim
              · unfold startCloud at h
                split at h
                · exact (hout h).elim
                · rename_i hctx
                  split at h
                  · exact (hout h).elim
                  · rename_i hst
                    refine Or.inr ⟨⟨e, o, rfl, by simpa using hctx, ?_⟩, hall, by simpa using herr⟩
                    simpa [hn] using hst
    · exact (hout h).elim

/-! ## Failures -/

/-- The first and second of consecutive time-outs of a step repeat the step; the third drops all that
was provisioned: the next attempt begins with the first step. -/
theorem third_timeout_starts_over (e : Env) (x : Step) (s : St) (hx : s.fl = expected x)
    (hf : s.force = false) :
    let t := handler e x .transient s
    (s.count < 2 → t.force = false ∧ t.count = s.count + 1 ∧ t.fl.next = s.fl.next) ∧
    (s.count = 2 → t.force = true ∧ t.count = 0 ∧ ∀ e', (provision e' t).fl.next = some .time) := by
  have hnext : ∀ f : Fl, (f.forced).next = some .time := fun f => rfl
  have hprov : ∀ (e' : Env) (t : St), t.force = true → (provision e' t).fl.next = some .time := by
    intro e' t ht
    have h1 : (applyForce t).fl = t.fl.forced := by
      unfold applyForce
      rw [if_pos ht]
    unfold provision provisionGo
    split
    · simp only [observe, h1]
      exact hnext _
    · split
      · rw [h1]; exact hnext _
      · split
        · rfl
        · split
          · simp only [h1]; exact hnext _
          · simp only [h1]; exact hnext _
  have hval : handler e x .transient s = handleFailure (scheds x s)
      { s with fl := { expected x with transient := true }, tm := { s.tm with retry := false } } := by
    cases x <;> simp [handler, handlerGo, hx, expected, Fl.has, Fl.noErr, scheds]
  intro t
  have ht : t = _ := hval
  refine ⟨fun h2 => ?_, fun h2 => ?_⟩
  · rw [ht]
    refine ⟨?_, ?_, ?_⟩
    · cases x <;> simp [handleFailure, hf, expected] <;> omega
    · simp [handleFailure]
      omega
    · rw [hx]
      cases x <;> rfl
  · have hforce : t.force = true := by
      rw [ht]
      simp [handleFailure, h2]
    refine ⟨hforce, ?_, fun e' => hprov e' t hforce⟩
    rw [ht]
    simp [handleFailure, h2]

example : ({ fl := expected .cred, count := 2 } : St).fl = expected .cred := rfl

/-! ## Provisioning goes on until it is complete -/

/-- The full claim: a manager the application started and did not stop is never left with nothing that
would continue the provisioning while it is not complete. It is false (`cloud_answer_stuck_false`,
`no_cloud_context_stuck_false`, `reset_stuck_false`). Proved: it holds for every history in which an
endpoint, the manufacturer certificate and the cloud context exist, answers to the cloud step are usable
and awaited, answers to the renewal of certificates do not redirect, and no reset happens while a
restart is pending. -/
theorem provisioning_goes_on_partial (ops : List Op) (h : FairRun {} ops)
    (ha : (run {} ops).want = true ∨ (run {} ops).started = true) :
    (run {} ops).fl.init = true ∧ Going (run {} ops) := by
  have h0 : Live {} := by
    refine ⟨fun hc => (by cases hc), fun ha => ?_⟩
    rcases ha with ha | ha | ha <;> cases ha
  have hl := live_run ops {} h0 h
  have := hl.2 (ha.imp id Or.inl)
  exact ⟨this.1, this.2.2⟩

/-- The environment in which everything succeeds. -/
def ok : Env := {}

/-- A first start up to the request of the cloud step. -/
def toCloud : List Op :=
  [.start ok, .fire .prov ok .wait, .fire .start ok .wait, .fire .next ok .wait,
   .answer (.step .time) .good ok, .fire .next ok .wait,
   .answer (.step .owner) .good ok, .fire .next ok .wait]

/-- A first start up to the end. -/
def toEnd : List Op :=
  toCloud ++ [.answer (.step .cloud) .good ok, .fire .next ok .wait, .answer (.step .cred) .good ok,
    .fire .next ok .wait, .answer (.step .acl) .good ok, .fire .next ok .wait]

/-- A history with failures that meets the conditions: a refused request, a time-out of the credentials
step and a lost session. -/
def bumpy : List Op :=
  [.start ok, .fire .prov ok .wait, .fire .start { ok with busy := true } .wait, .fire .start ok .wait,
   .fire .next { ok with sent := false } .wait, .fire .retry ok .wait, .fire .start ok .wait,
   .fire .next { ok with tcp := true } .wait, .connected, .answer (.step .time) .good ok,
   .disconnected ok, .fire .next ok .wait, .answer (.step .owner) .refused ok,
   .fire .retry ok .wait, .fire .start ok .wait, .fire .next ok .wait,
   .answer (.step .time) .good ok, .fire .next ok .wait, .answer (.step .owner) .good ok,
   .fire .next ok .wait, .answer (.step .cloud) .transient ok, .fire .retry ok .wait,
   .fire .start ok .wait, .fire .next ok .wait, .answer (.step .cloud) .good ok]

example : FairRun {} bumpy ∧ (run {} bumpy).want = true := by
  decide

/-- The answer to the cloud step has a success code but no usable configuration: the handler reports a
failure and schedules nothing (`plgd_dps_provision_cloud.c` 316-318), so provisioning stops for good,
with the manager started and no timer and no request left; the other four steps retry. -/
theorem cloud_answer_stuck_false :
    let s := run {} (toCloud ++ [.answer (.step .cloud) .bad ok])
    s.want = true ∧ s.started = true ∧ s.tm = {} ∧ s.reqs = [] ∧ s.fl.all = false ∧
      ¬ Going s := by
  refine ⟨by decide, by decide, by decide, by decide, by decide, ?_⟩
  unfold Going
  have : (run {} (toCloud ++ [.answer (.step .cloud) .bad ok])).reqs = [] := by decide
  rw [this]
  simp
  decide

/-- Without a cloud context the end of provisioning reports a failure and schedules nothing
(`plgd_dps_provision.c` 556-560 and 484-503): nothing continues, although all steps are done. -/
theorem no_cloud_context_stuck_false :
    let s := run {} (toEnd.dropLast ++ [.fire .next { ok with cloudCtx := false } .wait])
    s.want = true ∧ s.started = true ∧ s.fl.failure = true ∧ ¬ Going s := by
  refine ⟨by decide, by decide, by decide, ?_⟩
  unfold Going
  have : (run {} (toEnd.dropLast ++ [.fire .next { ok with cloudCtx := false } .wait])).reqs = [] := by
    decide
  rw [this]
  simp
  decide

/-- A factory reset does not remove the pending restart (`plgd_dps_context.c` 129-144 removes the timers
of `dps_manager_stop` only): the restart marks the manager as started with an empty status, so a later
start by the application reports success and does nothing (`plgd_dps_manager.c` 148-151). -/
theorem reset_stuck_false :
    let s := run {} [.start ok, .fire .prov { ok with epOk := false } .wait, .ifUp, .reset,
      .fire .mgr ok .wait, .fire .prov ok .wait, .start ok]
    s.want = true ∧ s.started = true ∧ s.fl = {} ∧ s.tm = {} ∧ s.reqs = [] := by
  decide

/-! ## It completes -/

/-- The steps of a status that are still missing, in order. -/
def missing (f : Fl) : List Step :=
  [Step.time, .owner, .cloud, .cred, .acl].filter fun x => !f.has x

/-- The history in which everything succeeds from a pending retry on. -/
def recovery (s : St) : List Op :=
  [.fire .retry ok .wait, .fire .start ok .wait, .fire .next ok .wait] ++
    (missing (applyForce s).fl).flatMap fun x => [.answer (.step x) .good ok, .fire .next ok .wait]

/-- Status before step `k`, possibly with its request under way. -/
def stage (k : Nat) (g : Bool) : Fl :=
  { init := true, hTime := decide (0 < k), hOwner := decide (1 < k), hCloud := decide (2 < k)
    hCred := decide (3 < k), hAcl := decide (4 < k), gTime := g && decide (k = 0)
    gOwner := g && decide (k = 1), gCloud := g && decide (k = 2), gCred := g && decide (k = 3)
    gAcl := g && decide (k = 4) }

theorem stage_of_tidy {f : Fl} (h : Tidy f) (hi : f.init = true) (hr : f.renew = false)
    (hs : f.started = false) : ∃ k ≤ 5, ∃ g, f.noErr = stage k g := by
  obtain ⟨i, gt, ht, go, ho, gc, hc, gr, hr', ga, hac, st, rn, tr, fa⟩ := f
  simp only at hi hr hs
  subst hi hr hs
  simp only [Tidy, Ordered] at h
  obtain ⟨⟨a1, a2, a3, a4⟩, b1, b2, b3, b4, b5⟩ := h
  cases ht
  · refine ⟨0, by omega, gt, ?_⟩
    simp [Fl.noErr, stage]
    grind
  · cases ho
    · refine ⟨1, by omega, go, ?_⟩
      simp [Fl.noErr, stage]
      grind
    · cases hc
      · refine ⟨2, by omega, gc, ?_⟩
        simp [Fl.noErr, stage]
        grind
      · cases hr'
        · refine ⟨3, by omega, gr, ?_⟩
          simp [Fl.noErr, stage]
          grind
        · cases hac
          · refine ⟨4, by omega, ga, ?_⟩
            simp [Fl.noErr, stage]
            grind
          · refine ⟨5, by omega, false, ?_⟩
            simp [Fl.noErr, stage]
            grind

/-- The step at a stage. -/
def stepAt : Nat → Step
  | 0 => .time
  | 1 => .owner
  | 2 => .cloud
  | 3 => .cred
  | _ => .acl

/-- Before the callback of the next step. -/
def Ready (k : Nat) (s : St) : Prop :=
  s.conn = false ∧ s.reqs = [] ∧ s.tm.next = true ∧ (∃ g, s.fl.noErr = stage k g) ∧
    (k = 5 → s.fl.err = false)

theorem fl_of_noErr {f v : Fl} (h : f.noErr = v) :
    f = { v with transient := f.transient, failure := f.failure } := by
  subst h
  rfl

theorem ready_step {k : Nat} (hk : k < 5) {s : St} (h : Ready k s) :
    Ready (k + 1) (run s [.fire .next ok .wait, .answer (.step (stepAt k)) .good ok]) := by
  obtain ⟨hc, hr, hn, ⟨g, hf⟩, _⟩ := h
  have hfl := fl_of_noErr hf
  generalize s.fl.transient = tr at hfl
  generalize s.fl.failure = fa at hfl
  obtain ⟨fl, force, started, count, closing, conn, tm, reqs, cloud, want, got⟩ := s
  simp only at hc hr hn hfl
  subst hc hr hfl
  match k, hk with
  | 0, _ =>
    simp [Ready, run, step, Tm.on, hn, Tm.off, fire, nextStep, Fl.next, stage, ok, ask, Fl.setGet,
      Fl.noErr, answer, handler, handlerGo, stepAt, Fl.has, expected, handlerGood, effect, scheds,
      Fl.setHas, Fl.err]
  | 1, _ =>
    simp [Ready, run, step, Tm.on, hn, Tm.off, fire, nextStep, Fl.next, stage, ok, ask, Fl.setGet,
      Fl.noErr, answer, handler, handlerGo, stepAt, Fl.has, expected, handlerGood, effect, scheds,
      Fl.setHas, Fl.err]
  | 2, _ =>
    simp [Ready, run, step, Tm.on, hn, Tm.off, fire, nextStep, Fl.next, stage, ok, ask, Fl.setGet,
      Fl.noErr, answer, handler, handlerGo, stepAt, Fl.has, expected, handlerGood, effect, scheds,
      Fl.setHas, Fl.err]
  | 3, _ =>
    simp [Ready, run, step, Tm.on, hn, Tm.off, fire, nextStep, Fl.next, stage, ok, ask, Fl.setGet,
      Fl.noErr, answer, handler, handlerGo, stepAt, Fl.has, expected, handlerGood, effect, scheds,
      Fl.setHas, Fl.err]
  | 4, _ =>
    simp [Ready, run, step, Tm.on, hn, Tm.off, fire, nextStep, Fl.next, stage, ok, ask, Fl.setGet,
      Fl.noErr, answer, handler, handlerGo, stepAt, Fl.has, expected, handlerGood, effect, scheds,
      Fl.setHas, Fl.err]

/-- The history from a stage on. -/
def rest (k : Nat) : List Op :=
  ([Step.time, .owner, .cloud, .cred, .acl].drop k).flatMap fun x =>
    [.answer (.step x) .good ok, .fire .next ok .wait]

/-- All steps are done without an error, the cloud was started and runs, and nothing is in flight. -/
def Complete (t : St) : Prop :=
  t.fl.all = true ∧ t.fl.err = false ∧ t.fl.started = true ∧ t.cloud = true ∧ t.reqs = []

theorem ready_last {s : St} (h : Ready 5 s) :
    Complete (run s [.fire .next ok .wait]) := by
  obtain ⟨hc, hr, hn, ⟨g, hf⟩, he⟩ := h
  have hfl := fl_of_noErr hf
  have he' := he rfl
  simp only [Fl.err, Bool.or_eq_false_iff] at he'
  rw [he'.1, he'.2] at hfl
  obtain ⟨fl, force, started, count, closing, conn, tm, reqs, cloud, want, got⟩ := s
  simp only at hc hr hn hfl
  subst hc hr hfl
  simp [Complete, run, step, Tm.on, hn, Tm.off, fire, nextStep, Fl.next, stage, ok, finishSteps, Fl.err, done,
    Fl.all, startCloud, observerStart, observe, Fl.noErr]

theorem run_append (s : St) (a b : List Op) : run s (a ++ b) = run (run s a) b := by
  simp [run, List.foldl_append]

theorem rest_succ {k : Nat} (hk : k < 5) :
    rest k = .answer (.step (stepAt k)) .good ok :: .fire .next ok .wait :: rest (k + 1) := by
  match k, hk with
  | 0, _ => rfl
  | 1, _ => rfl
  | 2, _ => rfl
  | 3, _ => rfl
  | 4, _ => rfl

theorem ready_run {k : Nat} (hk : k ≤ 5) : ∀ {s : St}, Ready k s →
    Complete (run s (.fire .next ok .wait :: rest k)) := by
  have key : ∀ n k : Nat, k + n = 5 → ∀ {s : St}, Ready k s →
      Complete (run s (.fire .next ok .wait :: rest k)) := by
    intro n
    induction n with
    | zero =>
      intro k hk s h
      have : k = 5 := by omega
      subst this
      have h5 : rest 5 = [] := rfl
      rw [h5]
      exact ready_last h
    | succ n ih =>
      intro k hk s h
      have h1 := ready_step (by omega) h
      have h2 := ih (k + 1) (by omega) h1
      have happ := run_append s [.fire .next ok .wait, .answer (.step (stepAt k)) .good ok]
        (.fire .next ok .wait :: rest (k + 1))
      simp only [List.cons_append, List.nil_append] at happ
      rw [rest_succ (by omega), happ]
      exact h2
  intro s h
  exact key (5 - k) k (by omega) h

theorem missing_stage {f : Fl} {k : Nat} {g : Bool} (hk : k ≤ 5) (h : f.noErr = stage k g) :
    missing f = [Step.time, .owner, .cloud, .cred, .acl].drop k := by
  have : missing f = missing f.noErr := by
    unfold missing
    simp only [has_noErr]
  rw [this, h]
  match k, hk with
  | 0, _ => rfl
  | 1, _ => rfl
  | 2, _ => rfl
  | 3, _ => rfl
  | 4, _ => rfl
  | 5, _ => rfl

/-- The full claim: from every state that can be reached with a retry pending, provisioning completes
when from then on everything succeeds. It is false (`renewal_livelock_false`). Proved: it completes,
asking exactly for the missing steps and starting the cloud, if no renewal of certificates and no earlier
start of the cloud is recorded in the status, no request is in flight, and a complete status with an
error is not left without a full provisioning. -/
theorem recovers_partial (ops : List Op) (h : (run {} ops).tm.retry = true)
    (hi : (run {} ops).fl.init = true) (hr : (run {} ops).fl.renew = false)
    (hs : (run {} ops).fl.started = false) (hq : (run {} ops).reqs = [])
    (he : (run {} ops).fl.all = true → (run {} ops).fl.err = true → (run {} ops).force = true) :
    Complete (run {} (ops ++ recovery (run {} ops))) := by
  have hT := (truth_run ops {} (truth_of_empty rfl)).1
  rw [run_append]
  generalize run {} ops = s at *
  have hst : ∃ k ≤ 5, ∃ g, (applyForce s).fl.noErr = stage k g := by
    unfold applyForce
    split
    · refine ⟨0, by omega, false, ?_⟩
      simp [Fl.forced, Fl.noErr, stage, hi, hr, hs]
    · rename_i hf
      rcases hT with hT | hT
      · exact stage_of_tidy hT hi hr hs
      · exact absurd hT hf
  obtain ⟨k, hk, g, hg⟩ := hst
  have herr : k = 5 → (applyForce s).fl.err = false := by
    intro h5
    subst h5
    revert hg
    unfold applyForce
    split
    · intro hg
      have := congrArg Fl.hTime hg
      simp [Fl.forced, Fl.noErr, stage] at this
    · rename_i hf
      intro hg
      cases hx : s.fl.err
      · rfl
      · refine absurd (he ?_ hx) hf
        have : s.fl.all = s.fl.noErr.all := rfl
        rw [this, hg]
        rfl
  have hap : (applyForce s).fl.init = true ∧ (applyForce s).fl.started = false ∧
      (applyForce s).reqs = [] ∧ (applyForce s).tm = s.tm := by
    unfold applyForce
    split
    · exact ⟨hi, hs, hq, rfl⟩
    · exact ⟨hi, hs, hq, rfl⟩
  -- the state before the first request
  have hpre : Ready k (run s [.fire .retry ok .wait, .fire .start ok .wait]) := by
    have hforce : applyForce { s with tm := s.tm.off .retry, conn := false } =
        { applyForce s with tm := s.tm.off .retry, conn := false } := by
      unfold applyForce
      simp only
      split <;> rfl
    have hdone : done ok { applyForce s with tm := s.tm.off .retry, conn := false } = false := by
      simp [done, hap.2.1]
    have e1 : run s [.fire .retry ok .wait] =
        { applyForce s with tm := { s.tm.off .retry with start := true }, conn := false } := by
      simp only [run, List.foldl_cons, List.foldl_nil, step, Tm.on, h, if_true, fire, provision]
      rw [hforce]
      unfold provisionGo
      rw [hdone]
      simp [hap.1, ok]
    have e2 : run s [.fire .retry ok .wait, .fire .start ok .wait] =
        run (run s [.fire .retry ok .wait]) [.fire .start ok .wait] := rfl
    rw [e2, e1]
    refine ⟨?_, ?_, ?_, ⟨g, ?_⟩, ?_⟩
    · simp [run, step, Tm.on, Tm.off, fire, startFire, ok]
    · simp [run, step, Tm.on, Tm.off, fire, startFire, ok, hap.2.2.1]
    · simp [run, step, Tm.on, Tm.off, fire, startFire, ok]
    · simp [run, step, Tm.on, Tm.off, fire, startFire, ok, hg]
    · intro h5
      simp [run, step, Tm.on, Tm.off, fire, startFire, ok, herr h5]
  have hrec : recovery s = [.fire .retry ok .wait, .fire .start ok .wait] ++
      (.fire .next ok .wait :: rest k) := by
    unfold recovery rest
    rw [missing_stage hk hg]
    rfl
  rw [hrec, run_append]
  exact ready_run hk hpre

/-- After a failed access control step. -/
example : (run {} (toEnd.dropLast.dropLast ++ [.answer (.step .acl) .bad ok])).tm.retry = true ∧
    (run {} (toEnd.dropLast.dropLast ++ [.answer (.step .acl) .bad ok])).reqs = [] ∧
    (run {} (toEnd.dropLast.dropLast ++ [.answer (.step .acl) .bad ok])).fl.init = true ∧
    (run {} (toEnd.dropLast.dropLast ++ [.answer (.step .acl) .bad ok])).fl.renew = false ∧
    (run {} (toEnd.dropLast.dropLast ++ [.answer (.step .acl) .bad ok])).fl.started = false ∧
    (run {} (toEnd.dropLast.dropLast ++ [.answer (.step .acl) .bad ok])).fl.all = false := by
  decide

/-! ## Renewals and the watch over the cloud go on -/

/-- The answer to a renewal that is recorded: a good one ends the record and another renewal is pending; a
failed one leaves another renewal pending if the certificates are still usable, and otherwise starts a full
provisioning if there is an endpoint and a manufacturer certificate. The timer that repeats an unanswered
renewal is off. -/
theorem renewal_repeats (s : St) (a : Ans) (e : Env) (hq : .renew ∈ s.reqs) (hr : s.fl.renew = true)
    (hm : e.hasEp = true ∧ e.mfg = true) :
    let t := step s (.answer .renew a e)
    t.tm.renewRetry = false ∧
    (a = .good → t.tm.renew = true ∧ t.fl = { s.fl with renew := false }) ∧
    (a ≠ .good → e.certs = true → e.chain = true → t.tm.renew = true ∧ t.fl = s.fl) ∧
    (a ≠ .good → e.certs = false → t.tm.prov = true ∧ t.fl = { init := true } ∧ t.started = true) := by
  cases a <;> cases hc : e.certs <;> cases hch : e.chain <;>
    simp [step, hq, answer, renewHandler, hr, renewAgain, hc, hch, reprovision, start, stopAll, hm.1, hm.2, initial]

example : .renew ∈ (run {} (toEnd ++ [.fire .renew ok .wait])).reqs ∧
    (run {} (toEnd ++ [.fire .renew ok .wait])).fl.renew = true := by
  decide

/-- A manager started on a device that is provisioned and whose cloud client runs watches over the cloud
client. -/
theorem complete_is_watched (s : St) (e : Env) (hs : s.started = false) (hf : s.force = false)
    (hc : s.cloud = true) (he : e.hasEp = true ∧ e.mfg = true ∧ e.fTime = true ∧ e.fOwner = true ∧
      e.fCloud = true ∧ e.certs = true ∧ e.chain = true ∧ e.fAcl = true ∧ e.registered = true ∧
      e.cloudCtx = true ∧ e.observe = true) :
    let t := run s [.start e, .fire .prov e .wait]
    t.tm.obs = true ∧ t.tm.renew = true ∧ t.started = true ∧ t.fl.all = true := by
  obtain ⟨h1, h2, h3, h4, h5, h6, h7, h8, h9, h10, h11⟩ := he
  simp [run, step, start, hs, hf, hc, h1, h2, h3, h4, h5, h6, h7, h8, h9, h10, h11, initial, found, Tm.on, Tm.off,
    fire, provision, provisionGo, applyForce, done, Fl.all, Fl.err, observe]

example : (let s : St := { cloud := true }
    s.started = false ∧ s.force = false ∧ s.cloud = true) := by decide

/-- The watch over the cloud client ends only when the device is registered and logged in: otherwise it goes
on, the next server is provisioned, or provisioning starts over, at the latest when the cloud client was
stopped. -/
theorem watch_goes_on (s : St) (e : Env) (o : Obs) (ho : s.tm.obs = true) (he : e.observe = true)
    (hm : e.hasEp = true ∧ e.mfg = true) :
    let t := step s (.fire .obs e o)
    (s.cloud = true → e.cloudCtx = true →
      match o with
      | .wait | .same => t.tm.obs = true
      | .otherUuid => t.tm.uuid = true
      | .round => t.tm.reprov = true
      | .exhausted => t.tm.prov = true ∧ t.fl = { init := true } ∧ t.cloud = false
      | .done => t = { s with tm := { s.tm with obs := false } }) ∧
    (s.cloud = false → t.tm.prov = true ∧ t.fl = { init := true }) := by
  cases o <;> cases hc : s.cloud <;> cases hx : e.cloudCtx <;>
    simp [step, Tm.on, ho, fire, observeFire, he, hc, hx, Tm.off, reprovision, start, stopAll, hm.1, hm.2, initial]

example : (run {} toEnd).tm.obs = true ∧ (run {} toEnd).cloud = true := by decide

/-! ## A renewal that blocks provisioning for good -/

/-- The operations of `renewal_livelock_false`: all but a start, restart or reset by the application and
a start of the cloud manager by others. -/
def Passive : Op → Prop
  | .start _ => False
  | .restart _ => False
  | .reset => False
  | .cloudRun b => b = false
  | _ => True

/-- The status no step can complete from. -/
def Blocked (s : St) : Prop :=
  s.fl.hTime = false ∧ (s.fl.init = false ∨ s.fl.renew = true ∨ s.fl.started = true) ∧
  .renew ∉ s.reqs ∧ s.tm.reprov = false ∧ s.tm.obs = false ∧ s.tm.uuid = false ∧ s.cloud = false

theorem blocked_not_expected {f : Fl} (h : f.init = false ∨ f.renew = true ∨ f.started = true)
    (x : Step) : f.noErr ≠ expected x := by
  intro he
  have h1 : f.init = (expected x).init := (congrArg Fl.init he :)
  have h2 : f.renew = (expected x).renew := (congrArg Fl.renew he :)
  have h3 : f.started = (expected x).started := (congrArg Fl.started he :)
  rw [h1, h2, h3] at h
  cases x <;> simp [expected] at h

theorem blocked_done {e : Env} {s : St} (h : Blocked s) : done e s = false := by
  simp [done, h.2.2.2.2.2.2]

theorem blocked_provision {e : Env} {s : St} (h : Blocked s) : Blocked (provision e s) := by
  have h1 : Blocked (applyForce s) := by
    unfold applyForce
    split
    · obtain ⟨a, b, c⟩ := h
      exact ⟨rfl, b, c⟩
    · exact h
  have hd := blocked_done (e := e) h1
  unfold provision provisionGo
  rw [hd]
  obtain ⟨a, b, c1, c2, c3, c4, c5⟩ := h1
  split
  · rename_i hx
    cases hx
  · split
    · exact ⟨a, b, c1, c2, c3, c4, c5⟩
    · split
      · exact ⟨rfl, Or.inl rfl, c1, rfl, rfl, rfl, c5⟩
      · split
        · exact ⟨a, b, c1, c2, c3, c4, c5⟩
        · exact ⟨a, b, c1, c2, c3, c4, c5⟩

theorem blocked_nextStep {e : Env} {s : St} (h : Blocked s) : Blocked (nextStep e s) := by
  obtain ⟨a, b, c1, c2, c3, c4, c5⟩ := h
  have hn : s.fl.next = some .time := by
    unfold Fl.next
    simp [a]
  unfold nextStep
  rw [hn]
  dsimp only
  split
  · refine ⟨a, b, ?_, c2, c3, c4, c5⟩
    simp [ask, c1]
  · exact ⟨a, b, c1, c2, c3, c4, c5⟩

theorem blocked_handler {e : Env} {x : Step} {a : Ans} {s : St} (h : Blocked s) :
    Blocked (handler e x a s) := by
  obtain ⟨h1, b, c1, c2, c3, c4, c5⟩ := h
  unfold handler
  split
  · exact ⟨h1, b, c1, c2, c3, c4, c5⟩
  · unfold handlerGo
    rw [if_pos (blocked_not_expected b x)]
    unfold handlerError
    split
    · exact ⟨h1, b, c1, c2, c3, c4, c5⟩
    · refine ⟨?_, ?_, c1, c2, c3, c4, c5⟩
      · cases x <;> simp [handleFailure, Fl.setHas, Fl.noErr, h1]
      · cases x <;> simpa [handleFailure, Fl.setHas, Fl.noErr] using b

theorem blocked_step {s : St} {op : Op} (hp : Passive op) (h : Blocked s) : Blocked (step s op) := by
  obtain ⟨a, b, c1, c2, c3, c4, c5⟩ := id h
  have hd : ∀ e, done e s = false := fun e => blocked_done h
  cases op with
  | start e => cases hp
  | restart e => cases hp
  | reset => cases hp
  | stop => exact ⟨a, b, c1, rfl, rfl, rfl, c5⟩
  | force => exact h
  | connected =>
    simp only [step]
    split
    · exact h
    · exact h
  | disconnected e =>
    simp only [step, disconnected]
    split
    · exact h
    · split
      · exact ⟨a, b, c1, c2, c3, c4, c5⟩
      · split
        · exact ⟨a, b, c1, rfl, rfl, rfl, c5⟩
        · exact h
  | cloudLost e =>
    simp only [step, c5]
    simpa using h
  | ifUp =>
    simp only [step]
    split
    · exact ⟨a, b, c1, rfl, rfl, rfl, c5⟩
    · exact h
  | cloudRun v =>
    have : v = false := hp
    exact ⟨a, b, c1, c2, c3, c4, this⟩
  | answer r x e =>
    simp only [step]
    split
    · rename_i hr
      cases r with
      | step y =>
        exact blocked_handler (s := { s with reqs := s.reqs.erase (.step y) })
          ⟨a, b, fun hx => c1 (List.mem_of_mem_erase hx), c2, c3, c4, c5⟩
      | renew => exact absurd hr c1
    · exact h
  | fire t e o =>
    simp only [step]
    split
    · rename_i ht
      cases t with
      | start =>
        simp only [fire, startFire]
        split
        · exact ⟨a, b, c1, c2, c3, c4, c5⟩
        · exact ⟨a, b, c1, c2, c3, c4, c5⟩
      | prov => exact blocked_provision (s := { s with tm := s.tm.off .prov }) ⟨a, b, c1, c2, c3, c4, c5⟩
      | retry =>
        exact blocked_provision (s := { s with tm := s.tm.off .retry, conn := false })
          ⟨a, b, c1, c2, c3, c4, c5⟩
      | reprov =>
        have : s.tm.reprov = true := ht
        rw [c2] at this
        cases this
      | next => exact blocked_nextStep (s := { s with tm := s.tm.off .next }) ⟨a, b, c1, c2, c3, c4, c5⟩
      | renew =>
        simp only [fire, renewFire]
        have : done e { s with tm := s.tm.off .renew } = false := by simp [done, c5]
        rw [this]
        exact ⟨a, b, c1, c2, c3, c4, c5⟩
      | renewRetry =>
        simp only [fire, renewFire]
        have : done e { s with tm := s.tm.off .renewRetry } = false := by simp [done, c5]
        rw [this]
        exact ⟨a, b, c1, c2, c3, c4, c5⟩
      | uuid =>
        have : s.tm.uuid = true := ht
        rw [c4] at this
        cases this
      | obs =>
        have : s.tm.obs = true := ht
        rw [c3] at this
        cases this
      | mgr =>
        simp only [fire, mgrFire]
        split
        · exact ⟨a, b, c1, c2, c3, c4, c5⟩
        · exact ⟨a, b, c1, c2, c3, c4, c5⟩
    · exact h

theorem blocked_run (ops : List Op) : ∀ s, Blocked s → (∀ op ∈ ops, Passive op) →
    Blocked (run s ops) := by
  induction ops with
  | nil => intro s h _; exact h
  | cons op ops ih =>
    intro s h hp
    exact ih _ (blocked_step (hp op (by simp)) h) (fun o ho => hp o (by simp [ho]))

/-- A device is provisioned; the renewal of its certificates times out once, so that the status keeps
recording a renewal; the observer then moves to a cloud server of another identifier. -/
def renewalThenSwitch : List Op :=
  toEnd ++ [.fire .renew ok .wait, .answer .renew .transient ok, .cloudLost ok, .fire .obs ok .otherUuid,
    .fire .uuid ok .wait, .fire .next ok .wait, .answer (.step .cred) .good ok, .fire .retry ok .wait]

/-- The handlers compare the whole status with the one they expect, and a full provisioning removes
neither the record of a renewal nor that of a started cloud (`plgd_dps_manager.c` 299-307). After the
history above - every answer but one time-out is good - the device never completes even the first step
again, whatever the service answers, until the application restarts provisioning. -/
theorem renewal_livelock_false (ops : List Op) (h : ∀ op ∈ ops, Passive op) :
    let s := run {} renewalThenSwitch
    s.want = true ∧ s.tm.start = true ∧ (run s ops).fl.hTime = false := by
  refine ⟨by decide, by decide, ?_⟩
  have hb : Blocked (run {} renewalThenSwitch) := by
    unfold Blocked
    decide
  exact (blocked_run ops _ hb h).1

example : ∀ op ∈ [Op.fire .start ok .wait, .fire .next ok .wait, .answer (.step .time) .good ok],
    Passive op := by
  simp [Passive]

/-! ## Stopping -/

/-- The operations by which the application starts provisioning. -/
def Starts : Op → Prop
  | .start _ => True
  | .restart _ => True
  | _ => False

/-- Nothing left to happen. -/
def Quiet (s : St) : Prop :=
  s.started = false ∧ s.tm = {} ∧ s.reqs = [] ∧ s.fl ≠ { init := true }

theorem quiet_step {s : St} {op : Op} (hp : ¬ Starts op) (h : Quiet s) : Quiet (step s op) := by
  obtain ⟨a, b, c, d⟩ := id h
  cases op with
  | start e => exact absurd trivial hp
  | restart e => exact absurd trivial hp
  | reset => exact ⟨rfl, by simp [step, stopTimers, b], c, by simp [step]⟩
  | stop => exact ⟨rfl, rfl, c, d⟩
  | force => exact h
  | connected => simpa [step, a] using h
  | disconnected e => simpa [step, disconnected, a] using h
  | cloudLost e => simpa [step, a] using h
  | ifUp => simpa [step, d] using h
  | cloudRun v => exact h
  | answer r x e => simpa [step, c] using h
  | fire t e o =>
    have : s.tm.on t = false := by
      rw [b]
      cases t <;> rfl
    simpa [step, this] using h

/-- The full claim: after the application stopped the manager nothing of provisioning happens until it
starts it again. It is false (`stop_answer_false`, `stop_interface_false`). Proved: it holds if no request
was in flight and the status was not the one right after a start. -/
theorem stop_final_partial (s : St) (ops : List Op) (hr : s.reqs = []) (hf : s.fl ≠ { init := true })
    (h : ∀ op ∈ ops, ¬ Starts op) :
    let t := run (step s .stop) ops
    t.started = false ∧ t.tm = {} ∧ t.reqs = [] := by
  have key : ∀ (ops : List Op) (s : St), Quiet s → (∀ op ∈ ops, ¬ Starts op) → Quiet (run s ops) := by
    intro ops
    induction ops with
    | nil => intro s h _; exact h
    | cons op ops ih =>
      intro s h hp
      exact ih _ (quiet_step (hp op (by simp)) h) (fun o ho => hp o (by simp [ho]))
  have := key ops (step s .stop) ⟨rfl, rfl, hr, hf⟩ h
  exact ⟨this.1, this.2.1, this.2.2.1⟩

example : (run {} toEnd).reqs = [] ∧ (run {} toEnd).fl ≠ { init := true } := by decide

/-- The application stops the manager while a request is in flight. Closing the session answers it with
`OC_CONNECTION_CLOSED` (`security/oc_tls.c` 544, `api/client/oc_client_cb.c` 311-326); the handler does
not look at whether the manager runs and schedules a retry, and the device provisions on: here it asks
for the time again. -/
theorem stop_answer_false :
    let s := run {} (toCloud ++ [.stop, .answer (.step .cloud) .refused ok, .fire .retry ok .wait,
      .fire .start ok .wait, .fire .next ok .wait])
    s.want = false ∧ s.started = false ∧ s.reqs = [.step .time] := by
  decide

/-- The application stops the manager before the first request, for instance without a network. The
callback for interfaces stays registered and restarts every context whose status is INITIALIZED
(`plgd_dps.c` 150-158, `plgd_dps_manager.c` 252-254): when the network comes up the stopped manager runs
and asks for the time. -/
theorem stop_interface_false :
    let s := run {} [.start ok, .fire .prov { ok with epOk := false } .wait, .stop, .ifUp,
      .fire .mgr ok .wait, .fire .prov ok .wait, .fire .start ok .wait, .fire .next ok .wait]
    s.want = false ∧ s.started = true ∧ s.reqs = [.step .time] := by
  decide

end Verif.Dps.Prov
