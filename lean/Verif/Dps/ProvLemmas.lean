import Verif.Dps.ProvModel

/-!
# Lemmas on the provisioning state machine
-/
namespace Verif.Dps.Prov

/-! ## Order and truth of the status -/

/-- The HAS flags of the steps form a prefix. -/
def Ordered (f : Fl) : Prop :=
  (f.hOwner = true → f.hTime = true) ∧ (f.hCloud = true → f.hOwner = true) ∧
  (f.hCred = true → f.hCloud = true) ∧ (f.hAcl = true → f.hCred = true)

/-- Besides, only the first missing step has its GET flag. -/
def Tidy (f : Fl) : Prop :=
  Ordered f ∧ (f.gTime = true → f.hTime = false) ∧
  (f.gOwner = true → f.hTime = true ∧ f.hOwner = false) ∧
  (f.gCloud = true → f.hOwner = true ∧ f.hCloud = false) ∧
  (f.gCred = true → f.hCloud = true ∧ f.hCred = false) ∧
  (f.gAcl = true → f.hCred = true ∧ f.hAcl = false)

/-- The GET flag of a step. -/
def Fl.get (f : Fl) : Step → Bool
  | .time => f.gTime
  | .owner => f.gOwner
  | .cloud => f.gCloud
  | .cred => f.gCred
  | .acl => f.gAcl

/-- The invariant behind `status_ordered` and `status_truthful`. -/
def Truth (s : St) : Prop :=
  (Tidy s.fl ∨ s.force = true) ∧ ∀ x, s.fl.has x = true → x ∈ s.got

theorem ordered_empty : Tidy {} := by simp [Ordered, Tidy]

theorem truth_of_empty {s : St} (h : s.fl = {}) : Truth s := by
  refine ⟨Or.inl (by rw [h]; exact ordered_empty), ?_⟩
  intro x hx
  rw [h] at hx
  cases x <;> simp [Fl.has] at hx

theorem mem_list (f : Fl) (x : Step) : x ∈ f.list ↔ f.has x = true := by
  cases x <;> simp [Fl.list]

theorem ordered_initial (e : Env) (s : St) : Tidy (initial e s) := by
  unfold initial found Tidy Ordered
  split <;> simp
  refine ⟨fun a _ => a, fun a b _ => ⟨a, b⟩, fun a b c _ _ => ⟨⟨a, b⟩, c⟩, fun a b c d f _ => ⟨⟨⟨⟨a, b⟩, c⟩, d⟩, f⟩⟩

theorem truth_start (e : Env) (s : St) (h : Truth s) : Truth (start e s) := by
  unfold start
  split
  · exact h
  · split
    · exact truth_of_empty rfl
    · split
      · exact h
      · exact ⟨Or.inl (ordered_initial e s), fun x hx => (mem_list _ x).2 hx⟩

/-- Truth depends on the status, the forced flag and the ghost only. -/
theorem truth_congr {s t : St} (hf : t.fl = s.fl) (hg : t.got = s.got)
    (ho : s.force = true → t.force = true) (h : Truth s) : Truth t := by
  refine ⟨?_, ?_⟩
  · rw [hf]
    exact h.1.imp id ho
  · rw [hf, hg]
    exact h.2

/-- Truth survives when only flags other than the HAS flags change. -/
theorem truth_has {s t : St} (hf : ∀ x, t.fl.has x = s.fl.has x ∧ t.fl.get x = s.fl.get x) (hg : t.got = s.got)
    (ho : s.force = true → t.force = true) (h : Truth s) : Truth t := by
  have h1 := hf .time
  have h2 := hf .owner
  have h3 := hf .cloud
  have h4 := hf .cred
  have h5 := hf .acl
  simp only [Fl.has, Fl.get] at h1 h2 h3 h4 h5
  refine ⟨?_, ?_⟩
  · refine h.1.imp (fun hor => ?_) ho
    unfold Tidy Ordered at hor ⊢
    rw [h1.1, h2.1, h3.1, h4.1, h5.1, h1.2, h2.2, h3.2, h4.2, h5.2]
    exact hor
  · intro x hx
    rw [(hf x).1] at hx
    rw [hg]
    exact h.2 x hx

theorem truth_reprovision (e : Env) (s : St) (h : Truth s) : Truth (reprovision e s) := by
  unfold reprovision
  exact truth_start e _ (truth_congr (s := s) rfl rfl (fun _ => rfl) h)

theorem truth_noCred {s t : St} (hf : ∀ x, t.fl.has x = (s.fl.noCred).has x ∧ t.fl.get x = (s.fl.noCred).get x) (hg : t.got = s.got)
    (ho : s.force = true → t.force = true) (h : Truth s) : Truth t := by
  refine truth_has (s := { s with fl := s.fl.noCred }) hf hg ho ⟨?_, ?_⟩
  · refine h.1.imp (fun hor => ?_) id
    unfold Tidy Ordered at hor ⊢
    simp [Fl.noCred]
    exact ⟨⟨hor.1.1, hor.1.2.1⟩, hor.2.1, hor.2.2.1, hor.2.2.2.1⟩
  · intro x hx
    refine h.2 x ?_
    cases x <;> simp [Fl.noCred, Fl.has] at hx ⊢ <;> exact hx

theorem truth_observerStart (e : Env) (s : St) (h : Truth s) : Truth (observerStart e s) := by
  unfold observerStart
  split
  · exact truth_congr (s := s) rfl rfl id h
  · exact truth_reprovision e s h

theorem truth_startCloud (e : Env) (s : St) (h : Truth s) : Truth (startCloud e s) := by
  unfold startCloud
  split
  · exact truth_has (s := s) (fun x => by cases x <;> exact ⟨rfl, rfl⟩) rfl id h
  · split
    · exact truth_has (s := s) (fun x => by cases x <;> exact ⟨rfl, rfl⟩) rfl (fun _ => rfl) h
    · refine truth_observerStart e _ (truth_has (s := s) (fun x => by cases x <;> exact ⟨rfl, rfl⟩) rfl id h)

theorem truth_finishSteps (e : Env) (s : St) (h : Truth s) : Truth (finishSteps e s) := by
  unfold finishSteps
  split
  · exact h
  · split
    · exact h
    · split
      · exact truth_noCred (s := s) (fun x => by cases x <;> exact ⟨rfl, rfl⟩) rfl id h
      · exact truth_startCloud e _ (truth_congr (s := s) rfl rfl id h)

theorem has_setGet (f : Fl) (b : Bool) (x y : Step) : (f.setGet b x).has y = f.has y := by
  cases x <;> cases y <;> rfl

theorem has_noErr (f : Fl) (y : Step) : f.noErr.has y = f.has y := by cases y <;> rfl

theorem truth_nextStep (e : Env) (s : St) (h : Truth s) : Truth (nextStep e s) := by
  unfold nextStep
  split
  · split
    · rename_i x hx _
      refine ⟨h.1.imp (fun ht => ?_) id, fun y hy => h.2 y ?_⟩
      · revert hx ht
        unfold ask Fl.next Tidy Ordered
        cases x <;> simp [Fl.setGet, Fl.noErr] <;> grind
      · have hh : (ask e x s).fl.has y = s.fl.has y := by
          unfold ask
          simp only
          rw [has_setGet]
          split
          · rfl
          · rw [has_noErr]
        rw [← hh]
        exact hy
    · exact truth_has (s := s) (fun x => by cases x <;> exact ⟨rfl, rfl⟩) rfl id h
  · exact truth_finishSteps e s h

theorem truth_provision (e : Env) (s : St) (h : Truth s) : Truth (provision e s) := by
  have h1 : Truth (applyForce s) := by
    unfold applyForce
    split
    · refine ⟨Or.inl ?_, ?_⟩
      · simp [Tidy, Ordered, Fl.forced]
      · intro x hx
        cases x <;> simp [Fl.forced, Fl.has] at hx
    · exact h
  unfold provision provisionGo
  split
  · exact truth_congr (s := applyForce s) rfl rfl id h1
  · split
    · exact h1
    · split
      · exact truth_of_empty rfl
      · split
        · exact truth_congr (s := applyForce s) rfl rfl id h1
        · exact truth_congr (s := applyForce s) rfl rfl id h1

theorem truth_handleFailure (b : Bool) (s : St) (h : Truth s) : Truth (handleFailure b s) := by
  refine truth_congr (s := s) rfl rfl (fun hf => ?_) h
  simp [handleFailure, hf]

theorem truth_handlerError (x : Step) (s : St) (h : Truth s) : Truth (handlerError x s) := by
  unfold handlerError
  split
  · exact truth_has (s := s) (fun x => by cases x <;> exact ⟨rfl, rfl⟩) rfl id h
  · refine ⟨Or.inr ?_, ?_⟩
    · cases x <;> simp [handleFailure, Fl.setHas]
    · intro y hy
      refine h.2 y ?_
      cases x <;> cases y <;> simp [handleFailure, Fl.setHas, Fl.has] at hy ⊢ <;> exact hy

theorem truth_handlerGood (e : Env) (x : Step) (s : St) (h : Truth s) (he : s.fl = expected x) :
    Truth (handlerGood e x s) := by
  refine ⟨Or.inl ?_, ?_⟩
  · cases x <;>
      simp [handlerGood, effect, he, expected, Tidy, Ordered, Fl.setGet, Fl.setHas, Fl.noErr]
  · intro y hy
    have hgot : (handlerGood e x s).got = x :: s.got := rfl
    rw [hgot]
    by_cases hxy : y = x
    · rw [hxy]
      exact List.mem_cons_self
    · refine List.mem_cons_of_mem _ (h.2 y ?_)
      have : (handlerGood e x s).fl = ((s.fl.setGet false x).setHas true x).noErr := rfl
      rw [this, has_noErr] at hy
      revert hy hxy
      cases x <;> cases y <;> simp [Fl.setHas, Fl.setGet, Fl.has]

theorem truth_handler (e : Env) (x : Step) (a : Ans) (s : St) (h : Truth s) :
    Truth (handler e x a s) := by
  unfold handler
  split
  · exact h
  · have h1 : Truth { s with fl := s.fl.noErr, tm := { s.tm with retry := false } } :=
      truth_has (s := s) (fun y => by cases y <;> exact ⟨rfl, rfl⟩) rfl id h
    generalize hs : ({ s with fl := s.fl.noErr, tm := { s.tm with retry := false } } : St) = s1 at h1
    unfold handlerGo
    split
    · exact truth_handlerError x _ h1
    · rename_i hne
      have he : s1.fl = expected x := by
        exact Classical.not_not.1 hne
      cases a with
      | good => exact truth_handlerGood e x _ h1 he
      | bad => exact truth_handlerError x _ (truth_congr (s := s1) rfl rfl id h1)
      | transient =>
        exact truth_handleFailure _ _ (truth_has (s := s1) (fun y => by cases y <;> exact ⟨rfl, rfl⟩) rfl id h1)
      | refused =>
        exact truth_handleFailure _ _ (truth_has (s := s1) (fun y => by cases y <;> exact ⟨rfl, rfl⟩) rfl id h1)

theorem truth_renewAgain (e : Env) (s : St) (h : Truth s) : Truth (renewAgain e s) := by
  unfold renewAgain
  split
  · exact truth_congr (s := s) rfl rfl id h
  · exact truth_reprovision e s h

theorem truth_renewHandler (e : Env) (a : Ans) (s : St) (h : Truth s) :
    Truth (renewHandler e a s) := by
  unfold renewHandler
  dsimp only
  split
  · exact truth_congr (s := s) rfl rfl id h
  · split
    · exact truth_has (s := s) (fun y => by cases y <;> exact ⟨rfl, rfl⟩) rfl id h
    · split
      · exact truth_renewAgain e _ (truth_congr (s := s) rfl rfl id h)
      · exact truth_reprovision e _ (truth_congr (s := s) rfl rfl id h)
    · exact truth_renewAgain e _ (truth_congr (s := s) rfl rfl id h)

theorem truth_renewFire (e : Env) (s : St) (h : Truth s) : Truth (renewFire e s) := by
  unfold renewFire
  split
  · exact h
  · split
    · exact truth_has (s := s) (fun y => by cases y <;> exact ⟨rfl, rfl⟩) rfl id h
    · exact truth_renewAgain e s h

theorem truth_observeFire (e : Env) (o : Obs) (s : St) (h : Truth s) :
    Truth (observeFire e o s) := by
  unfold observeFire
  split
  · exact truth_reprovision e s h
  · split
    · exact h
    · cases o
      · exact truth_congr (s := s) rfl rfl id h
      · exact h
      · exact truth_reprovision e s h
      · exact truth_congr (s := s) rfl rfl id h
      · exact truth_congr (s := s) rfl rfl id h
      · exact truth_congr (s := s) rfl rfl id h

theorem truth_fire (e : Env) (o : Obs) (t : Timer) (s : St) (h : Truth s) : Truth (fire e o t s) := by
  cases t
  · unfold fire startFire
    dsimp only
    split <;> exact truth_congr (s := s) rfl rfl id h
  · exact truth_provision e s h
  · exact truth_provision e _ (truth_congr (s := s) rfl rfl id h)
  · exact truth_reprovision e s h
  · exact truth_nextStep e s h
  · exact truth_renewFire e s h
  · exact truth_renewFire e s h
  · exact truth_noCred (s := s) (fun x => by cases x <;> exact ⟨rfl, rfl⟩) rfl id h
  · exact truth_observeFire e o s h
  · unfold fire mgrFire
    dsimp only
    split
    · exact h
    · exact truth_congr (s := s) rfl rfl id h

theorem truth_step (s : St) (op : Op) (h : Truth s) : Truth (step s op) := by
  cases op with
  | start e => exact truth_start e _ (truth_congr (s := s) rfl rfl id h)
  | stop => exact truth_congr (s := s) rfl rfl id h
  | restart e => exact truth_start e _ (truth_congr (s := s) rfl rfl id h)
  | force => exact truth_congr (s := s) rfl rfl (fun _ => rfl) h
  | fire t e o =>
    simp only [step]
    split
    · exact truth_fire e o t _ (truth_congr (s := s) rfl rfl id h)
    · exact h
  | answer r a e =>
    simp only [step]
    split
    · cases r with
      | step x => exact truth_handler e x a _ (truth_congr (s := s) rfl rfl id h)
      | renew => exact truth_renewHandler e a _ (truth_congr (s := s) rfl rfl id h)
    · exact h
  | connected =>
    simp only [step]
    split
    · exact truth_congr (s := s) rfl rfl id h
    · exact h
  | disconnected e =>
    simp only [step, disconnected]
    split
    · exact h
    · split
      · exact truth_congr (s := s) rfl rfl id h
      · split
        · exact truth_congr (s := s) rfl rfl id h
        · exact truth_congr (s := s) rfl rfl id h
  | cloudLost e =>
    simp only [step]
    split
    · exact truth_congr (s := s) rfl rfl id h
    · exact h
  | ifUp =>
    simp only [step]
    split
    · exact truth_congr (s := s) rfl rfl id h
    · exact h
  | cloudRun b => exact truth_congr (s := s) rfl rfl id h
  | reset => exact truth_of_empty rfl

theorem truth_run (ops : List Op) : ∀ s, Truth s → Truth (run s ops) := by
  induction ops with
  | nil => intro s h; exact h
  | cons op ops ih => intro s h; exact ih _ (truth_step s op h)

end Verif.Dps.Prov
