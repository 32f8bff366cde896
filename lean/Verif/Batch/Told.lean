import Verif.Batch.Good

namespace Verif.Batch

/-! ### What is told, to whom -/

/-- A removal is pending only for observers that may read the resource. -/
def GoneAcl (env : Env) (s : St) : Prop :=
  ∀ e ∈ s.queue, ∀ u, e.tgt = .gone u → ∀ o ∈ s.obs, o.id = e.obs → env.acl u o.ep = true

theorem gone_addBatch {env : Env} {luck : Luck} {r : Res} {rm d : Bool} {s : St} (h : WF s) (hg : GoneAcl env s) :
    GoneAcl env (addBatch env luck r rm d s) := by
  obtain ⟨add, h1, h2, h3, _⟩ := addLoop_spec env luck r rm s.obs s.queue h.obsNd
  intro e he u hu o ho hoe
  unfold addBatch at he
  dsimp only at he
  rw [h1, List.mem_append] at he
  rcases he with he | he
  · exact hg e he u hu o ho hoe
  · obtain ⟨o', ho', rfl⟩ := List.mem_map.1 he
    have := obs_unique h.obsNd ho (h2.subset ho') hoe
    subst this
    cases rm with
    | false => cases hu
    | true =>
      simp only [mk, if_true, Tgt.gone.injEq] at hu
      rw [← hu]
      exact (h3 o ho').1

theorem gone_cancel {env : Env} {s : St} (hg : GoneAcl env s) (i : Nat) : GoneAcl env (cancel i s) := by
  intro e he u hu o ho hoe
  exact hg e (List.mem_filter.1 he).1 u hu o (List.mem_filter.1 ho).1 hoe

theorem gone_cancels {env : Env} {l : List Nat} : ∀ {s : St}, GoneAcl env s →
    GoneAcl env (l.foldl (fun s i => cancel i s) s) := by
  induction l with
  | nil => intro s h; exact h
  | cons i l ih => intro s h; exact ih (gone_cancel h i)

theorem proc_sub {env : Env} {luck : Luck} : ∀ (n : Nat) {s s' : St}, WF s → proc env luck n s = .ok s' →
    (∀ e ∈ s'.queue, e ∈ s.queue) ∧ s'.obs = s.obs := by
  intro n
  induction n with
  | zero => intro s s' _ h; injection h with h; subst h; exact ⟨fun e he => he, rfl⟩
  | succ n ih =>
    intro s s' h hp
    rcases proc_turn (env := env) (luck := luck) h n with ⟨h1, _⟩ | ⟨pre, e, o, post, hq, ho, _, _, _, h1⟩
    · rw [h1] at hp; injection hp with hp; subst hp; exact ⟨fun e he => he, rfl⟩
    · dsimp only at h1
      rw [h1] at hp
      obtain ⟨a1, _, _, _, _, _⟩ := send_shape luck o
        ((s.queue.filter fun x => x.obs == o.id).flatMap fun e => itm env s.res o e.tgt) s
      split at hp
      · obtain ⟨b1, b2⟩ := ih (wf_turn (env := env) (luck := luck) (es := s.queue.filter fun x => x.obs == o.id) h ho
          (show (dropObs o.id s.queue).Sublist s.queue from List.filter_sublist)) hp
        exact ⟨fun x hx => (List.mem_filter.1 (b1 x hx)).1, b2.trans a1⟩
      · injection hp with hp
        subst hp
        refine ⟨fun x hx => ?_, a1⟩
        dsimp only at hx
        rw [hq]
        rcases List.mem_append.1 hx with hx | hx
        · exact List.mem_append_left _ hx
        · rcases List.mem_cons.1 hx with rfl | hx
          · simp
          · exact List.mem_append_right _ (List.mem_cons_of_mem _ (List.mem_filter.1 hx).1)

theorem gone_step {env : Env} {s s' : St} {l : Luck} {op : Op} (h : WF s) (hg : GoneAcl env s)
    (ha : safe s l op) (hs : step env s l op = .ok s') : GoneAcl env s' := by
  cases op with
  | register ep =>
    unfold step at hs; injection hs with hs; subst hs
    unfold register
    dsimp only
    have hc := gone_cancels (l := (s.obs.filter fun o => o.ep == ep).map (·.id)) hg
    have hw := wf_cancels (l := (s.obs.filter fun o => o.ep == ep).map (·.id)) h
    generalize List.foldl (fun s i => cancel i s) s ((s.obs.filter fun o => o.ep == ep).map (·.id)) = t at hc hw
    intro e he u hu o ho hoe
    dsimp only at he ho
    rcases List.mem_append.1 ho with ho | ho
    · exact hc e he u hu o ho hoe
    · simp only [List.mem_singleton] at ho
      subst ho
      obtain ⟨⟨o', ho', hoe'⟩, _⟩ := hw.ents e he
      have := hw.obsLt o' ho'
      dsimp only at hoe
      omega
  | cancel i => unfold step at hs; injection hs with hs; subst hs; exact gone_cancel hg i
  | create u => unfold step at hs; injection hs with hs; subst hs; exact hg
  | add i =>
    unfold step at hs
    dsimp only at hs
    cases hf : s.res.find? (fun r => r.id == i) with
    | none => rw [hf] at hs; injection hs with hs; subst hs; exact hg
    | some r =>
      rw [hf] at hs; injection hs with hs; subst hs
      unfold addRes
      split
      · exact hg
      · rename_i hc
        simp only [Bool.or_eq_true, not_or, Bool.not_eq_true] at hc
        exact (gone_addBatch (d := false) (rm := false) (r := r) (luck := l) (wf_list h (find_res h hf).1 hc.2) hg :)
  | change i =>
    unfold step at hs
    dsimp only at hs
    cases hf : s.res.find? (fun r => r.id == i) with
    | none => rw [hf] at hs; injection hs with hs; subst hs; exact hg
    | some r =>
      rw [hf] at hs; injection hs with hs; subst hs
      exact (gone_addBatch (d := true) (rm := false) (r := r) (luck := l) (wf_bump h r) hg :)
  | delete i =>
    unfold step at hs
    dsimp only at hs
    cases hf : s.res.find? (fun r => r.id == i) with
    | none => rw [hf] at hs; injection hs with hs; subst hs; exact hg
    | some r =>
      rw [hf] at hs; injection hs with hs; subst hs
      unfold deleteRes
      dsimp only
      split
      · exact (gone_addBatch (d := false) (rm := true) (r := r) (luck := l) (wf_drop h r.id)
          (fun e he => hg e (List.mem_filter.1 he).1) :)
      · exact hg
  | tick =>
    unfold step at hs
    dsimp only at hs
    split at hs
    · unfold process at hs
      split at hs
      · injection hs with hs; subst hs; exact hg
      · obtain ⟨h1, h2⟩ := proc_sub s.queue.length (wf_sched h false) hs
        intro e he u hu o ho hoe
        rw [h2] at ho
        exact hg e (h1 e he) u hu o ho hoe
    · injection hs with hs; subst hs; exact hg
  | xferStart ep => unfold step at hs; injection hs with hs; subst hs; exact hg
  | xferEnd ep => unfold step at hs; injection hs with hs; subst hs; exact hg

theorem reach_gone {env : Env} {s : St} (h : Reach env safe s) : GoneAcl env s := by
  induction h with
  | init => intro e he; cases he
  | step hr ha hs ih => exact gone_step (reach_wf hr) ih ha hs

/-- An item may be told to an observer: it may read the resource, and what is said
of a resource that is there is what the batch representation shows of it now. -/
def fine (env : Env) (res : List Res) (obs : List Obs) (i : Item) : Prop :=
  ∃ o ∈ obs, o.id = i.obs ∧ env.acl i.uri o.ep = true ∧
    ∀ w, i.what = some w → env.shown i.uri o.ep = true ∧ ∃ r ∈ res, r.uri = i.uri ∧ r.listed = true ∧ w = (r.id, r.ver)

theorem itm_fine {env : Env} {s : St} (h : WF s) (hg : GoneAcl env s) {o : Obs} (ho : o ∈ s.obs) {e : Ent}
    (he : e ∈ s.queue) (hoe : e.obs = o.id) : ∀ i ∈ itm env s.res o e.tgt, fine env s.res s.obs i := by
  intro i hi
  have hio := itm_obs i hi
  obtain ⟨_, h2⟩ := h.ents e he
  refine ⟨o, ho, hio.symm, ?_⟩
  unfold itm item at hi
  cases ht : e.tgt with
  | res j =>
    rw [ht] at hi h2
    obtain ⟨r, hr, hid, hl⟩ := h2
    dsimp only at hi
    cases hf : s.res.find? (fun r => r.id == j) with
    | none => rw [hf] at hi; cases hi
    | some x =>
      rw [hf] at hi
      dsimp only at hi
      obtain ⟨hx, hxi⟩ := find_res h hf
      have hxr := res_unique h.resNd hx hr (hxi.trans hid.symm)
      subst hxr
      split at hi
      · rename_i hc
        simp only [Bool.and_eq_true] at hc
        simp only [List.mem_singleton] at hi
        subst hi
        refine ⟨hc.1, fun w hw => ⟨hc.2, x, hx, rfl, hl, ?_⟩⟩
        injection hw with hw
        exact hw.symm
      · cases hi
  | gone u =>
    rw [ht] at hi h2
    dsimp only at hi h2
    rw [if_pos (by omega)] at hi
    simp only [List.mem_singleton] at hi
    subst hi
    exact ⟨hg e he u ht o ho hoe.symm, fun w hw => by cases hw⟩

theorem proc_told {env : Env} {luck : Luck} : ∀ (n : Nat) {s s' : St}, WF s → GoneAcl env s →
    proc env luck n s = .ok s' → ∃ its, s'.log = s.log ++ its ∧ ∀ i ∈ its, fine env s.res s.obs i := by
  intro n
  induction n with
  | zero => intro s s' _ _ h; injection h with h; subst h; exact ⟨[], by simp, by simp⟩
  | succ n ih =>
    intro s s' h hg hp
    rcases proc_turn (env := env) (luck := luck) h n with ⟨h1, _⟩ | ⟨pre, e, o, post, hq, ho, _, _, _, h1⟩
    · rw [h1] at hp; injection hp with hp; subst hp; exact ⟨[], by simp, by simp⟩
    · dsimp only at h1
      rw [h1] at hp
      obtain ⟨a1, a2, _, _, _, a6⟩ := send_shape luck o
        ((s.queue.filter fun x => x.obs == o.id).flatMap fun e => itm env s.res o e.tgt) s
      have hfine : ∀ i ∈ (s.queue.filter fun x => x.obs == o.id).flatMap (fun e => itm env s.res o e.tgt),
          fine env s.res s.obs i := by
        intro i hi
        obtain ⟨x, hx, hi⟩ := List.mem_flatMap.1 hi
        obtain ⟨hx, hxo⟩ := List.mem_filter.1 hx
        exact itm_fine h hg ho hx (by simpa using hxo) i hi
      split at hp
      · obtain ⟨its, b1, b2⟩ := ih (wf_turn (env := env) (luck := luck) (es := s.queue.filter fun x => x.obs == o.id) h ho
          (show (dropObs o.id s.queue).Sublist s.queue from List.filter_sublist))
          (by
            intro x hx u hu o' ho' hoe
            dsimp only at ho'
            rw [a1] at ho'
            exact hg x (List.mem_filter.1 hx).1 u hu o' ho' hoe) hp
        dsimp only at b1 b2
        rw [a1, a2] at b2
        rcases a6 with a6 | a6
        · exact ⟨its, by rw [b1, a6], b2⟩
        · refine ⟨(s.queue.filter fun x => x.obs == o.id).flatMap (fun e => itm env s.res o e.tgt) ++ its,
            by rw [b1, a6, List.append_assoc], ?_⟩
          intro i hi
          rcases List.mem_append.1 hi with hi | hi
          · exact hfine i hi
          · exact b2 i hi
      · injection hp with hp
        subst hp
        rcases a6 with a6 | a6
        · exact ⟨[], by simp [a6], by simp⟩
        · exact ⟨_, a6, hfine⟩

theorem addRes_told {env : Env} {luck : Luck} {r : Res} {s : St} : (addRes env luck r s).log = s.log := by
  unfold addRes
  split <;> rfl

theorem deleteRes_told {env : Env} {luck : Luck} {r : Res} {s : St} : (deleteRes env luck r s).log = s.log := by
  unfold deleteRes
  dsimp only
  split <;> rfl

theorem cancels_log {l : List Nat} : ∀ {s : St}, (l.foldl (fun s i => cancel i s) s).log = s.log ∧
    (l.foldl (fun s i => cancel i s) s).res = s.res := by
  induction l with
  | nil => intro s; exact ⟨rfl, rfl⟩
  | cons i l ih => intro s; exact ih (s := cancel i s)

theorem step_told {env : Env} {s s' : St} {l : Luck} {op : Op} (h : WF s) (hg : GoneAcl env s)
    (hs : step env s l op = .ok s') : ∃ its, s'.log = s.log ++ its ∧ ∀ i ∈ its, fine env s'.res s'.obs i := by
  cases op with
  | register ep =>
    unfold step at hs; injection hs with hs; subst hs
    unfold register
    dsimp only
    obtain ⟨hl, hr⟩ := cancels_log (l := (s.obs.filter fun o => o.ep == ep).map (·.id)) (s := s)
    generalize List.foldl (fun s i => cancel i s) s ((s.obs.filter fun o => o.ep == ep).map (·.id)) = t at hl hr
    refine ⟨_, by rw [← hl], ?_⟩
    intro i hi
    obtain ⟨r, hr, rfl⟩ := List.mem_map.1 hi
    obtain ⟨hr, hc⟩ := List.mem_filter.1 hr
    simp only [Bool.and_eq_true] at hc
    refine ⟨⟨t.nextObs, ep⟩, by simp, rfl, hc.1.2, fun w hw => ⟨hc.2, r, hr, rfl, hc.1.1, ?_⟩⟩
    injection hw with hw
    exact hw.symm
  | cancel i => unfold step at hs; injection hs with hs; subst hs; exact ⟨[], by simp [cancel], by simp⟩
  | create u => unfold step at hs; injection hs with hs; subst hs; exact ⟨[], by simp, by simp⟩
  | add i =>
    unfold step at hs
    dsimp only at hs
    cases hf : s.res.find? (fun r => r.id == i) with
    | none => rw [hf] at hs; injection hs with hs; subst hs; exact ⟨[], by simp, by simp⟩
    | some r => rw [hf] at hs; injection hs with hs; subst hs; exact ⟨[], by rw [addRes_told]; simp, by simp⟩
  | change i =>
    unfold step at hs
    dsimp only at hs
    cases hf : s.res.find? (fun r => r.id == i) with
    | none => rw [hf] at hs; injection hs with hs; subst hs; exact ⟨[], by simp, by simp⟩
    | some r => rw [hf] at hs; injection hs with hs; subst hs; exact ⟨[], by simp [changeRes, addBatch], by simp⟩
  | delete i =>
    unfold step at hs
    dsimp only at hs
    cases hf : s.res.find? (fun r => r.id == i) with
    | none => rw [hf] at hs; injection hs with hs; subst hs; exact ⟨[], by simp, by simp⟩
    | some r => rw [hf] at hs; injection hs with hs; subst hs; exact ⟨[], by rw [deleteRes_told]; simp, by simp⟩
  | tick =>
    unfold step at hs
    dsimp only at hs
    split at hs
    · unfold process at hs
      split at hs
      · injection hs with hs; subst hs; exact ⟨[], by simp, by simp⟩
      · obtain ⟨its, h1, h2⟩ := proc_told s.queue.length (wf_sched h false) hg hs
        obtain ⟨t, g1, _, g3, g4, _⟩ := proc_wf (env := env) (luck := l) s.queue.length (wf_sched h false)
        have hs : proc env l s.queue.length { s with sched := false } = .ok s' := hs
        have g1 : proc env l s.queue.length { s with sched := false } = .ok t := g1
        rw [g1] at hs
        injection hs with hs
        subst hs
        refine ⟨its, h1, ?_⟩
        rw [g3, g4]
        exact h2
    · injection hs with hs; subst hs; exact ⟨[], by simp, by simp⟩
  | xferStart ep => unfold step at hs; injection hs with hs; subst hs; exact ⟨[], by simp, by simp⟩
  | xferEnd ep => unfold step at hs; injection hs with hs; subst hs; exact ⟨[], by simp [xferEnd], by simp⟩

/-- When every payload is small no transfer starts. -/
theorem proc_small {env : Env} {luck : Luck} (hb : ∀ i, luck.big i = false) : ∀ (n : Nat) {s s' : St}, WF s →
    proc env luck n s = .ok s' → s'.xfers = s.xfers := by
  intro n
  induction n with
  | zero => intro s s' _ h; injection h with h; subst h; rfl
  | succ n ih =>
    intro s s' h hp
    have hsend : ∀ o its, (send luck o its s).1.xfers = s.xfers := by
      intro o its
      unfold send
      rw [hb]
      repeat' split
      all_goals first | rfl | contradiction
    rcases proc_turn (env := env) (luck := luck) h n with ⟨h1, _⟩ | ⟨pre, e, o, post, hq, ho, _, _, _, h1⟩
    · rw [h1] at hp; injection hp with hp; subst hp; rfl
    · dsimp only at h1
      rw [h1] at hp
      split at hp
      · exact (ih (wf_turn (env := env) (luck := luck) (es := s.queue.filter fun x => x.obs == o.id) h ho
          (show (dropObs o.id s.queue).Sublist s.queue from List.filter_sublist)) hp).trans (hsend o _)
      · injection hp with hp
        subst hp
        exact hsend o _

end Verif.Batch
