import Verif.Dps.ProvLemmas

/-!
# Something is always pending: lemmas
-/
namespace Verif.Dps.Prov

/-- Something will continue the provisioning, or it is complete: a callback that leads on is pending, a
request of a missing step is in flight, the closing of the insecure session is awaited, or all five
steps are done without an error and the cloud was started. -/
def Going (s : St) : Prop :=
  s.tm.start = true ∨ s.tm.prov = true ∨ s.tm.retry = true ∨ s.tm.reprov = true ∨ s.tm.next = true ∨
  s.tm.uuid = true ∨ (s.tm.mgr = true ∧ s.started = false) ∨
  (∃ x, .step x ∈ s.reqs ∧ s.fl.has x = false) ∨
  (s.closing = true ∧ s.conn = true ∧ s.started = true) ∨
  (s.fl.all = true ∧ s.fl.err = false ∧ s.fl.started = true)

/-- A complete status with an error flag is about to be dropped. -/
def Heals (s : St) : Prop := s.fl.all = true → s.fl.err = true → s.tm.retry = true ∧ s.force = true

/-- A session that counts as open is watched, or the manager is about to be started. -/
def Watched (s : St) : Prop := s.conn = true → s.started = true ∨ s.tm.mgr = true

/-- The invariant. -/
def Live (s : St) : Prop :=
  Watched s ∧
  (s.want = true ∨ s.started = true ∨ s.tm.mgr = true → s.fl.init = true ∧ Heals s ∧ Going s)

/-- What the environment must provide at every operation. -/
def FairEnv (e : Env) : Prop := e.hasEp = true ∧ e.mfg = true ∧ e.cloudCtx = true

/-- The answer to the cloud step is usable and arrives while it is awaited (or is skipped as
duplicate). -/
def FairCloud (s : St) (a : Ans) : Prop :=
  (s.fl.hCloud = true ∧ s.fl.failure = false) ∨ (s.fl.noErr = expected .cloud ∧ a ≠ .bad)

/-- The histories of `provisioning_goes_on_partial`. -/
def Fair (s : St) : Op → Prop
  | .start e => FairEnv e
  | .restart e => FairEnv e
  | .fire _ e _ => FairEnv e
  | .answer (.step .cloud) a e => FairEnv e ∧ FairCloud s a
  | .answer (.step _) _ e => FairEnv e
  | .answer .renew _ e => FairEnv e ∧ e.redirect = false
  | .disconnected e => FairEnv e
  | .cloudLost e => FairEnv e
  | .reset => s.tm.mgr = false
  | _ => True

/-- Every operation of a history is fair when it happens. -/
def FairRun : St → List Op → Prop
  | _, [] => True
  | s, op :: ops => Fair s op ∧ FairRun (step s op) ops

instance (e : Env) : Decidable (FairEnv e) := by unfold FairEnv; infer_instance

instance (s : St) (a : Ans) : Decidable (FairCloud s a) := by unfold FairCloud; infer_instance

instance (s : St) (op : Op) : Decidable (Fair s op) := by
  unfold Fair
  split <;> infer_instance

instance decFairRun : (s : St) → (ops : List Op) → Decidable (FairRun s ops)
  | _, [] => .isTrue trivial
  | s, op :: ops =>
    have := decFairRun (step s op) ops
    inferInstanceAs (Decidable (Fair s op ∧ FairRun (step s op) ops))

theorem initial_init (e : Env) (s : St) : (initial e s).init = true := by
  unfold initial found
  split <;> rfl

theorem initial_err (e : Env) (s : St) : (initial e s).err = false := by
  unfold initial found Fl.err
  split <;> rfl

theorem live_start {e : Env} {s : St} (he : FairEnv e) (hw : Watched s) (hs : s.started = false) :
    Live (start e s) := by
  have h : start e s =
    { s with
      fl := initial e s
      got := (initial e s).list
      force := false
      count := 0
      started := true
      tm := { s.tm with
              prov := true
              renew := s.tm.renew || (!s.force && e.fTime && e.fOwner && e.fCloud && e.certs) } } := by
    unfold start
    simp [hs, he.1, he.2.1]
  rw [h]
  refine ⟨fun _ => Or.inl rfl, fun _ => ⟨initial_init e s, ?_, Or.inr (Or.inl rfl)⟩⟩
  intro _ h2
  have h3 := initial_err e s
  rw [h3] at h2
  cases h2

theorem live_reprovision {e : Env} {s : St} (he : FairEnv e) : Live (reprovision e s) := by
  unfold reprovision
  refine live_start he ?_ rfl
  intro h
  cases h

/-- The manager is wanted, runs or is about to run. -/
def Act (s : St) : Prop := s.want = true ∨ s.started = true ∨ s.tm.mgr = true

theorem going_of_done {e : Env} {s : St} (h : done e s = true) : Going s := by
  simp only [done, Bool.and_eq_true, Bool.not_eq_true'] at h
  obtain ⟨⟨⟨⟨h1, h2⟩, _⟩, _⟩, h3⟩ := h
  unfold Going
  exact Or.inr (Or.inr (Or.inr (Or.inr (Or.inr (Or.inr (Or.inr (Or.inr (Or.inr ⟨h1, h2, h3⟩))))))))

theorem live_provisionGo {e : Env} {s : St} (he : FairEnv e) (hw : Watched s)
    (h : Act s → s.fl.init = true ∧ (s.fl.all = true → s.fl.err = false)) :
    Live (provisionGo e s) := by
  have hheal : Act s → ∀ t : St, t.fl = s.fl → Heals t := by
    intro ha t ht hall herr
    rw [ht] at hall herr
    rw [(h ha).2 hall] at herr
    cases herr
  unfold provisionGo
  split
  · rename_i hd
    refine ⟨hw, fun ha => ⟨(h ha).1, hheal ha _ rfl, ?_⟩⟩
    have := going_of_done hd
    unfold Going at this ⊢
    exact this
  · split
    · rename_i hi
      refine ⟨hw, fun ha => ?_⟩
      rw [(h ha).1] at hi
      cases hi
    · split
      · rename_i hh
        rw [he.1] at hh
        cases hh
      · split
        · exact ⟨hw, fun ha => ⟨(h ha).1, hheal ha _ rfl, Or.inr (Or.inr (Or.inl rfl))⟩⟩
        · exact ⟨hw, fun ha => ⟨(h ha).1, hheal ha _ rfl, Or.inl rfl⟩⟩

theorem live_provision {e : Env} {s : St} (he : FairEnv e) (hw : Watched s)
    (h : Act s → s.fl.init = true ∧ (s.fl.all = true → s.fl.err = true → s.force = true)) :
    Live (provision e s) := by
  unfold provision
  refine live_provisionGo he ?_ ?_
  · unfold applyForce
    split <;> exact hw
  · unfold applyForce
    split
    · intro ha
      refine ⟨(h ha).1, fun hall => ?_⟩
      simp [Fl.forced, Fl.all] at hall
    · rename_i hf
      intro ha
      refine ⟨(h ha).1, fun hall => ?_⟩
      cases herr : s.fl.err
      · rfl
      · exact absurd ((h ha).2 hall herr) hf

theorem next_none {f : Fl} (h : f.next = none) : f.all = true := by
  unfold Fl.next at h
  unfold Fl.all
  grind

theorem next_some {f : Fl} {x : Step} (h : f.next = some x) : f.has x = false := by
  unfold Fl.next at h
  cases x <;> simp only [Fl.has] <;> grind

theorem has_of_all {f : Fl} (h : f.all = true) (x : Step) : f.has x = true := by
  unfold Fl.all at h
  cases x <;> simp_all [Fl.has]

theorem live_startCloud {e : Env} {s : St} (he : FairEnv e) (hw : Watched s)
    (h : Act s → s.fl.init = true) (hall : s.fl.all = true) : Live (startCloud e s) := by
  unfold startCloud
  split
  · rename_i hc
    rw [he.2.2] at hc
    cases hc
  · split
    · exact ⟨hw, fun ha => ⟨h ha, fun _ _ => ⟨rfl, rfl⟩, Or.inr (Or.inr (Or.inl rfl))⟩⟩
    · unfold observerStart
      split
      · refine ⟨hw, fun ha => ⟨h ha, ?_, ?_⟩⟩
        · intro _ herr
          simp [observe, Fl.err, Fl.noErr] at herr
        · unfold Going
          refine Or.inr (Or.inr (Or.inr (Or.inr (Or.inr (Or.inr (Or.inr (Or.inr (Or.inr ⟨?_, ?_, ?_⟩))))))))
          · exact hall
          · rfl
          · rfl
      · exact live_reprovision he

theorem live_nextStep {e : Env} {s : St} (he : FairEnv e) (hw : Watched s)
    (h : Act s → s.fl.init = true ∧ Heals s) : Live (nextStep e s) := by
  unfold nextStep
  split
  · rename_i x hx
    have hhas := next_some hx
    have hnot : ∀ t : St, t.fl.has x = s.fl.has x → Heals t := by
      intro t ht hall _
      rw [has_of_all hall, hhas] at ht
      cases ht
    split
    · have hh : (ask e x s).fl.has x = s.fl.has x := by
        unfold ask
        simp only
        rw [has_setGet]
        split
        · rfl
        · rw [has_noErr]
      refine ⟨hw, fun ha => ⟨?_, hnot _ hh, ?_⟩⟩
      · have := (h ha).1
        cases x <;> simpa [ask, Fl.setGet, Fl.noErr] using this
      · unfold Going
        refine Or.inr (Or.inr (Or.inr (Or.inr (Or.inr (Or.inr (Or.inr (Or.inl ⟨x, ?_, ?_⟩)))))))
        · simp [ask]
        · rw [hh]
          exact hhas
    · refine ⟨hw, fun ha => ⟨(h ha).1, hnot _ (by cases x <;> rfl), Or.inr (Or.inr (Or.inl rfl))⟩⟩
  · rename_i hn
    have hall := next_none hn
    unfold finishSteps
    split
    · rename_i herr
      exact ⟨hw, fun ha => ⟨(h ha).1, (h ha).2, Or.inr (Or.inr (Or.inl ((h ha).2 hall herr).1))⟩⟩
    · split
      · rename_i hd
        exact ⟨hw, fun ha => ⟨(h ha).1, (h ha).2, going_of_done hd⟩⟩
      · split
        · refine ⟨hw, fun ha => ⟨(h ha).1, ?_, Or.inr (Or.inr (Or.inl rfl))⟩⟩
          intro hall
          simp [Fl.noCred, Fl.all] at hall
        · exact live_startCloud he hw (fun ha => (h ha).1) hall

/-- What makes provisioning go on, apart from the request that is being answered. -/
theorem going_erase {s : St} {r : Req} (h : Going s) (hr : ∀ x, r = .step x → s.fl.has x = true) :
    Going { s with reqs := s.reqs.erase r } := by
  unfold Going at h ⊢
  rcases h with h | h | h | h | h | h | h | ⟨x, hx, hh⟩ | h | h
  · exact Or.inl h
  · exact Or.inr (Or.inl h)
  · exact Or.inr (Or.inr (Or.inl h))
  · exact Or.inr (Or.inr (Or.inr (Or.inl h)))
  · exact Or.inr (Or.inr (Or.inr (Or.inr (Or.inl h))))
  · exact Or.inr (Or.inr (Or.inr (Or.inr (Or.inr (Or.inl h)))))
  · exact Or.inr (Or.inr (Or.inr (Or.inr (Or.inr (Or.inr (Or.inl h))))))
  · refine Or.inr (Or.inr (Or.inr (Or.inr (Or.inr (Or.inr (Or.inr (Or.inl ⟨x, ?_, hh⟩)))))))
    refine (List.mem_erase_of_ne ?_).2 hx
    intro hne
    rw [hr x hne.symm] at hh
    cases hh
  · exact Or.inr (Or.inr (Or.inr (Or.inr (Or.inr (Or.inr (Or.inr (Or.inr (Or.inl h))))))))
  · exact Or.inr (Or.inr (Or.inr (Or.inr (Or.inr (Or.inr (Or.inr (Or.inr (Or.inr h))))))))

theorem going_closing {s : St} (hc : s.closing = true) (hn : s.conn = true) (hw : Watched s) :
    Going s := by
  unfold Going
  cases hs : s.started
  · rcases hw hn with h | h
    · rw [hs] at h
      cases h
    · exact Or.inr (Or.inr (Or.inr (Or.inr (Or.inr (Or.inr (Or.inl ⟨h, rfl⟩))))))
  · exact Or.inr (Or.inr (Or.inr (Or.inr (Or.inr (Or.inr (Or.inr (Or.inr (Or.inl ⟨hc, hn, rfl⟩))))))))

theorem scheds_off {x : Step} {s : St} (h : scheds x s = false) : s.conn = true ∧ s.closing = true := by
  unfold scheds at h
  split at h
  · simpa using h
  · cases h

theorem going_handleFailure {x : Step} {s : St} (hw : Watched s) :
    Going (handleFailure (scheds x s) s) := by
  cases h : scheds x s
  · obtain ⟨h1, h2⟩ := scheds_off h
    exact going_closing (s := handleFailure false s) h2 h1 hw
  · refine Or.inr (Or.inr (Or.inl ?_))
    simp [handleFailure]

theorem expected_not_all (x : Step) : (expected x).all = false := by cases x <;> rfl

theorem live_handlerError {x : Step} {s : St} (hw : Watched s) (h : Act s → s.fl.init = true)
    (hx : x ≠ .cloud) : Live (handlerError x s) := by
  unfold handlerError
  rw [if_neg hx]
  refine ⟨hw, fun ha => ⟨?_, ?_, ?_⟩⟩
  · have := h ha
    cases x <;> simpa [handleFailure, Fl.setHas] using this
  · intro hall
    have := has_of_all hall x
    cases x <;> simp [handleFailure, Fl.setHas, Fl.has] at this
  · exact going_handleFailure (s := { s with fl := { s.fl.setHas false x with failure := true } }) hw

theorem live_handler {e : Env} {x : Step} {a : Ans} {s : St} (hw : Watched s)
    (h : Act s → s.fl.init = true ∧ Heals s ∧ (s.fl.has x = true → Going s))
    (hf : x = .cloud → FairCloud s a) : Live (handler e x a s) := by
  unfold handler
  split
  · rename_i hskip
    simp only [Bool.and_eq_true] at hskip
    exact ⟨hw, fun ha => ⟨(h ha).1, (h ha).2.1, (h ha).2.2 hskip.1⟩⟩
  · rename_i hskip
    have hf1 : x = .cloud → s.fl.noErr = expected .cloud ∧ a ≠ .bad := by
      intro hx
      rcases hf hx with h1 | h1
      · subst hx
        simp [Fl.has, h1.1, h1.2] at hskip
      · exact h1
    have hw1 : Watched { s with fl := s.fl.noErr, tm := { s.tm with retry := false } } := hw
    have hi : Act { s with fl := s.fl.noErr, tm := { s.tm with retry := false } } →
        s.fl.noErr.init = true := fun ha => (h ha).1
    unfold handlerGo
    split
    · rename_i hne
      refine live_handlerError hw1 hi ?_
      intro hx
      refine hne ?_
      rw [(hf1 hx).1, hx]
    · rename_i hne
      have heq : s.fl.noErr = expected x := Classical.not_not.1 hne
      have hnall : ∀ t : St, t.fl.all = s.fl.noErr.all → Heals t := by
        intro t ht hall
        rw [ht, heq, expected_not_all] at hall
        cases hall
      cases a with
      | transient =>
        refine ⟨hw, fun ha => ⟨hi ha, hnall _ rfl, ?_⟩⟩
        exact going_handleFailure
          (s := { s with fl := { s.fl.noErr with transient := true }, tm := { s.tm with retry := false } }) hw
      | refused =>
        refine ⟨hw, fun ha => ⟨hi ha, hnall _ rfl, ?_⟩⟩
        exact going_handleFailure
          (s := { s with fl := { s.fl.noErr with failure := true }, tm := { s.tm with retry := false } }) hw
      | bad =>
        refine live_handlerError ?_ hi (fun hx => (hf1 hx).2 rfl)
        intro hc
        simp only [Bool.and_eq_true] at hc
        exact hw hc.1
      | good =>
        refine ⟨?_, fun ha => ⟨?_, ?_, ?_⟩⟩
        · intro hc
          simp only [handlerGood, effect, Bool.and_eq_true] at hc
          exact hw hc.1
        · have := hi ha
          cases x <;> simpa [handlerGood, effect, Fl.setGet, Fl.setHas, Fl.noErr] using this
        · intro _ herr
          simp [handlerGood, effect, Fl.err, Fl.noErr] at herr
        · cases hsc : scheds x (effect e x
            { s with fl := s.fl.noErr, tm := { s.tm with retry := false } })
          · obtain ⟨h1, h2⟩ := scheds_off hsc
            refine going_closing h2 h1 ?_
            intro hc
            simp only [handlerGood, effect, Bool.and_eq_true] at hc
            exact hw hc.1
          · refine Or.inr (Or.inr (Or.inr (Or.inr (Or.inl ?_))))
            simp only [handlerGood, hsc, Bool.or_true]

theorem live_congr {s t : St} (hfl : t.fl.init = s.fl.init) (hall : t.fl.all = s.fl.all)
    (herr : t.fl.err = s.fl.err) (hst : t.fl.started = s.fl.started)
    (hhas : ∀ x, t.fl.has x = s.fl.has x) (hforce : s.force = true → t.force = true)
    (hs : t.started = s.started) (hcl : t.closing = s.closing) (hco : t.conn = s.conn)
    (hw : t.want = s.want)
    (ht : t.tm.start = s.tm.start ∧ t.tm.prov = s.tm.prov ∧ t.tm.retry = s.tm.retry ∧
      t.tm.reprov = s.tm.reprov ∧ t.tm.next = s.tm.next ∧ t.tm.uuid = s.tm.uuid ∧ t.tm.mgr = s.tm.mgr)
    (hr : ∀ x, .step x ∈ s.reqs → .step x ∈ t.reqs) (h : Live s) : Live t := by
  obtain ⟨h1, h2⟩ := h
  obtain ⟨t1, t2, t3, t4, t5, t6, t7⟩ := ht
  refine ⟨?_, ?_⟩
  · unfold Watched at h1 ⊢
    rw [hco, hs, t7]
    exact h1
  · rw [hw, hs, t7]
    intro ha
    obtain ⟨g1, g2, g3⟩ := h2 ha
    refine ⟨by rw [hfl]; exact g1, ?_, ?_⟩
    · unfold Heals at g2 ⊢
      rw [hall, herr, t3]
      exact fun a b => ⟨(g2 a b).1, hforce (g2 a b).2⟩
    · unfold Going at g3 ⊢
      rw [t1, t2, t3, t4, t5, t6, t7, hs, hcl, hco, hall, herr, hst]
      rcases g3 with h | h | h | h | h | h | h | ⟨x, hx, hh⟩ | h | h
      · exact Or.inl h
      · exact Or.inr (Or.inl h)
      · exact Or.inr (Or.inr (Or.inl h))
      · exact Or.inr (Or.inr (Or.inr (Or.inl h)))
      · exact Or.inr (Or.inr (Or.inr (Or.inr (Or.inl h))))
      · exact Or.inr (Or.inr (Or.inr (Or.inr (Or.inr (Or.inl h)))))
      · exact Or.inr (Or.inr (Or.inr (Or.inr (Or.inr (Or.inr (Or.inl h))))))
      · exact Or.inr (Or.inr (Or.inr (Or.inr (Or.inr (Or.inr (Or.inr (Or.inl ⟨x, hr x hx, by rw [hhas]; exact hh⟩)))))))
      · exact Or.inr (Or.inr (Or.inr (Or.inr (Or.inr (Or.inr (Or.inr (Or.inr (Or.inl h))))))))
      · exact Or.inr (Or.inr (Or.inr (Or.inr (Or.inr (Or.inr (Or.inr (Or.inr (Or.inr h))))))))

theorem live_renewAgain {e : Env} {s : St} (he : FairEnv e) (h : Live s) : Live (renewAgain e s) := by
  unfold renewAgain
  split
  · exact live_congr (s := s) rfl rfl rfl rfl (fun _ => rfl) id rfl rfl rfl rfl
      ⟨rfl, rfl, rfl, rfl, rfl, rfl, rfl⟩ (fun _ h => h) h
  · exact live_reprovision he

theorem live_renewFire {e : Env} {s : St} (he : FairEnv e) (h : Live s) : Live (renewFire e s) := by
  unfold renewFire
  split
  · exact h
  · split
    · exact live_congr (s := s) rfl rfl rfl rfl (fun x => by cases x <;> rfl) id rfl rfl rfl rfl
        ⟨rfl, rfl, rfl, rfl, rfl, rfl, rfl⟩ (fun _ h => by simp [h]) h
    · exact live_renewAgain he h

theorem live_renewHandler {e : Env} {a : Ans} {s : St} (he : FairEnv e) (hr : e.redirect = false)
    (h : Live s) : Live (renewHandler e a s) := by
  have h1 : Live { s with tm := { s.tm with renewRetry := false } } :=
    live_congr (s := s) rfl rfl rfl rfl (fun _ => rfl) id rfl rfl rfl rfl
      ⟨rfl, rfl, rfl, rfl, rfl, rfl, rfl⟩ (fun _ h => h) h
  unfold renewHandler
  dsimp only
  split
  · exact h1
  · split
    · exact live_congr (s := s) rfl rfl rfl rfl (fun x => by cases x <;> rfl) id rfl rfl (by simp [hr]) rfl
        ⟨rfl, rfl, rfl, rfl, rfl, rfl, rfl⟩ (fun _ h => h) h
    · split
      · refine live_renewAgain he (live_congr (s := s) rfl rfl rfl rfl (fun x => by cases x <;> rfl) id rfl rfl
          (by simp [hr]) rfl ⟨rfl, rfl, rfl, rfl, rfl, rfl, rfl⟩ (fun _ h => h) h)
      · exact live_reprovision he
    · exact live_renewAgain he h1

theorem live_observeFire {e : Env} {o : Obs} {s : St} (he : FairEnv e) (h : Live s) :
    Live (observeFire e o s) := by
  have hobs : Live { s with tm := { s.tm with obs := true } } :=
    live_congr (s := s) rfl rfl rfl rfl (fun _ => rfl) id rfl rfl rfl rfl
      ⟨rfl, rfl, rfl, rfl, rfl, rfl, rfl⟩ (fun _ h => h) h
  unfold observeFire
  split
  · exact live_reprovision he
  · split
    · exact h
    · cases o
      · exact hobs
      · exact h
      · exact live_reprovision he
      · exact hobs
      · exact ⟨h.1, fun ha => ⟨(h.2 ha).1, (h.2 ha).2.1,
          Or.inr (Or.inr (Or.inr (Or.inr (Or.inr (Or.inl rfl)))))⟩⟩
      · exact ⟨h.1, fun ha => ⟨(h.2 ha).1, (h.2 ha).2.1, Or.inr (Or.inr (Or.inr (Or.inl rfl)))⟩⟩

theorem live_off {s : St} {t : Timer} (h : Live s) (ht : t = .renew ∨ t = .renewRetry ∨ t = .obs) :
    Live { s with tm := s.tm.off t } := by
  rcases ht with rfl | rfl | rfl <;>
  exact live_congr (s := s) rfl rfl rfl rfl (fun _ => rfl) id rfl rfl rfl rfl
      ⟨rfl, rfl, rfl, rfl, rfl, rfl, rfl⟩ (fun _ h => h) h

theorem live_fire {e : Env} {o : Obs} {t : Timer} {s : St} (he : FairEnv e) (h : Live s)
    (ht : s.tm.on t = true) : Live (fire e o t { s with tm := s.tm.off t }) := by
  cases t with
  | start =>
    unfold fire startFire
    dsimp only
    split
    · exact ⟨h.1, fun ha => ⟨(h.2 ha).1, (h.2 ha).2.1, Or.inl rfl⟩⟩
    · exact ⟨h.1, fun ha => ⟨(h.2 ha).1, (h.2 ha).2.1, Or.inr (Or.inr (Or.inr (Or.inr (Or.inl rfl))))⟩⟩
  | prov =>
    exact live_provision he h.1 (fun ha => ⟨(h.2 ha).1, fun a b => ((h.2 ha).2.1 a b).2⟩)
  | retry =>
    exact live_provision he (fun hc => (by cases hc))
      (fun ha => ⟨(h.2 ha).1, fun a b => ((h.2 ha).2.1 a b).2⟩)
  | reprov => exact live_reprovision he
  | next => exact live_nextStep he h.1 (fun ha => ⟨(h.2 ha).1, (h.2 ha).2.1⟩)
  | renew => exact live_renewFire he (live_off h (Or.inl rfl))
  | renewRetry => exact live_renewFire he (live_off h (Or.inr (Or.inl rfl)))
  | uuid =>
    refine ⟨h.1, fun ha => ⟨(h.2 ha).1, ?_, Or.inr (Or.inr (Or.inr (Or.inr (Or.inl rfl))))⟩⟩
    intro hall
    simp [fire, uuidFire, Fl.noCred, Fl.all] at hall
  | obs => exact live_observeFire he (live_off h (Or.inr (Or.inr rfl)))
  | mgr =>
    have hmgr : s.tm.mgr = true := ht
    unfold fire mgrFire
    dsimp only
    split
    · rename_i hs
      refine ⟨fun _ => Or.inl hs, fun ha => ?_⟩
      obtain ⟨g1, g2, g3⟩ := h.2 (Or.inr (Or.inl hs))
      refine ⟨g1, g2, ?_⟩
      unfold Going at g3 ⊢
      rw [hs] at g3 ⊢
      simpa [Tm.off] using g3
    · obtain ⟨g1, g2, g3⟩ := h.2 (Or.inr (Or.inr hmgr))
      exact ⟨fun _ => Or.inl rfl, fun _ => ⟨g1, g2, Or.inr (Or.inl rfl)⟩⟩

theorem live_restartLater {s : St} (hi : s.fl.init = true) (hh : s.fl.err = false) :
    Live (restartLater s) := by
  refine ⟨fun _ => Or.inr rfl, fun _ => ⟨hi, ?_, ?_⟩⟩
  · intro _ herr
    have : (restartLater s).fl.err = s.fl.err := rfl
    rw [this, hh] at herr
    cases herr
  · exact Or.inr (Or.inr (Or.inr (Or.inr (Or.inr (Or.inr (Or.inl ⟨rfl, rfl⟩))))))

theorem live_step {s : St} {op : Op} (hf : Fair s op) (h : Live s) : Live (step s op) := by
  cases op with
  | start e =>
    simp only [step]
    by_cases hs : s.started = true
    case neg =>
      exact live_start hf (s := { s with want := s.want || (e.hasEp && e.mfg) }) h.1 (by simpa using hs)
    case pos =>
      have : start e { s with want := s.want || (e.hasEp && e.mfg) } =
          { s with want := s.want || (e.hasEp && e.mfg) } := by
        unfold start
        rw [if_pos hs]
      rw [this]
      exact ⟨h.1, fun _ => h.2 (Or.inr (Or.inl hs))⟩
  | stop =>
    refine ⟨fun hc => (by cases hc), fun ha => ?_⟩
    rcases ha with ha | ha | ha <;> cases ha
  | restart e =>
    exact live_start hf (s := { stopAll s with want := e.hasEp && e.mfg }) (fun hc => (by cases hc)) rfl
  | force =>
    exact live_congr (s := s) rfl rfl rfl rfl (fun _ => rfl) (fun _ => rfl) rfl rfl rfl rfl
      ⟨rfl, rfl, rfl, rfl, rfl, rfl, rfl⟩ (fun _ h => h) h
  | fire t e o =>
    simp only [step]
    split
    · rename_i ht
      exact live_fire hf h ht
    · exact h
  | answer r a e =>
    simp only [step]
    split
    · cases r with
      | step x =>
        refine live_handler (s := { s with reqs := s.reqs.erase (.step x) }) h.1
          (fun ha => ⟨(h.2 ha).1, (h.2 ha).2.1, fun hx => ?_⟩) ?_
        · refine going_erase (h.2 ha).2.2 ?_
          intro y hy
          injection hy with hy
          rw [← hy]
          exact hx
        · intro hx
          subst hx
          exact hf.2
      | renew =>
        refine live_renewHandler hf.1 hf.2 ⟨h.1, fun ha => ⟨(h.2 ha).1, (h.2 ha).2.1, ?_⟩⟩
        exact going_erase (h.2 ha).2.2 (fun y hy => (by cases hy))
    · exact h
  | connected =>
    simp only [step]
    split
    · rename_i hs
      refine ⟨fun _ => Or.inl hs, fun ha => ⟨(h.2 ha).1, (h.2 ha).2.1, ?_⟩⟩
      have g := (h.2 ha).2.2
      unfold Going at g ⊢
      rcases g with h | h | h | h | h | h | h | h | h | h
      · exact Or.inl h
      · exact Or.inr (Or.inl h)
      · exact Or.inr (Or.inr (Or.inl h))
      · exact Or.inr (Or.inr (Or.inr (Or.inl h)))
      · exact Or.inr (Or.inr (Or.inr (Or.inr (Or.inl h))))
      · exact Or.inr (Or.inr (Or.inr (Or.inr (Or.inr (Or.inl h)))))
      · exact Or.inr (Or.inr (Or.inr (Or.inr (Or.inr (Or.inr (Or.inl h))))))
      · exact Or.inr (Or.inr (Or.inr (Or.inr (Or.inr (Or.inr (Or.inr (Or.inl h)))))))
      · exact Or.inr (Or.inr (Or.inr (Or.inr (Or.inr (Or.inr (Or.inr (Or.inr (Or.inl ⟨h.1, rfl, h.2.2⟩))))))))
      · exact Or.inr (Or.inr (Or.inr (Or.inr (Or.inr (Or.inr (Or.inr (Or.inr (Or.inr h))))))))
    · exact h
  | disconnected e =>
    simp only [step, disconnected]
    split
    · exact h
    · rename_i hc
      simp only [Bool.or_eq_true, Bool.not_eq_true', not_or, Bool.not_eq_false] at hc
      obtain ⟨g1, g2, g3⟩ := h.2 (Or.inr (Or.inl hc.1))
      split
      · refine ⟨fun hx => (by cases hx), fun _ => ⟨g1, ?_, ?_⟩⟩
        · intro hall herr
          have herr' : s.fl.err = true := herr
          exact ⟨by simp [herr'], (g2 hall herr).2⟩
        · cases herr : s.fl.err
          · exact Or.inr (Or.inr (Or.inr (Or.inr (Or.inl (by simp)))))
          · exact Or.inr (Or.inr (Or.inl (by simp)))
      · rename_i hcl
        split
        · rename_i he
          simp only [Bool.and_eq_true, Bool.not_eq_true'] at he
          exact live_restartLater g1 he.1
        · refine ⟨fun hx => (by cases hx), fun _ => ⟨g1, g2, ?_⟩⟩
          unfold Going at g3 ⊢
          rcases g3 with h | h | h | h | h | h | h | h | h | h
          · exact Or.inl h
          · exact Or.inr (Or.inl h)
          · exact Or.inr (Or.inr (Or.inl h))
          · exact Or.inr (Or.inr (Or.inr (Or.inl h)))
          · exact Or.inr (Or.inr (Or.inr (Or.inr (Or.inl h))))
          · exact Or.inr (Or.inr (Or.inr (Or.inr (Or.inr (Or.inl h)))))
          · exact Or.inr (Or.inr (Or.inr (Or.inr (Or.inr (Or.inr (Or.inl h))))))
          · exact Or.inr (Or.inr (Or.inr (Or.inr (Or.inr (Or.inr (Or.inr (Or.inl h)))))))
          · exact absurd h.1 hcl
          · exact Or.inr (Or.inr (Or.inr (Or.inr (Or.inr (Or.inr (Or.inr (Or.inr (Or.inr h))))))))
  | cloudLost e =>
    simp only [step]
    split
    · exact live_congr (s := s) rfl rfl rfl rfl (fun _ => rfl) id rfl rfl rfl rfl
        ⟨rfl, rfl, rfl, rfl, rfl, rfl, rfl⟩ (fun _ h => h) h
    · exact h
  | ifUp =>
    simp only [step]
    split
    · rename_i hi
      exact live_restartLater (by rw [hi]) (by rw [hi]; rfl)
    · exact h
  | cloudRun b =>
    exact live_congr (s := s) rfl rfl rfl rfl (fun _ => rfl) id rfl rfl rfl rfl
      ⟨rfl, rfl, rfl, rfl, rfl, rfl, rfl⟩ (fun _ h => h) h
  | reset =>
    have hm : s.tm.mgr = false := hf
    refine ⟨fun hc => (by cases hc), fun ha => ?_⟩
    rcases ha with ha | ha | ha
    · cases ha
    · cases ha
    · simp [step, stopTimers, hm] at ha

theorem live_run (ops : List Op) : ∀ s, Live s → FairRun s ops → Live (run s ops) := by
  induction ops with
  | nil => intro s h _; exact h
  | cons op ops ih => intro s h hf; exact ih _ (live_step hf.1 h) hf.2

end Verif.Dps.Prov
