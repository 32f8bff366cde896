import Verif.Batch.Lemmas

namespace Verif.Batch

/-! ### The structure is kept by every step -/

theorem find_res {s : St} (h : WF s) {i : Nat} {r : Res} (hf : s.res.find? (fun r => r.id == i) = some r) :
    r ∈ s.res ∧ r.id = i :=
  ⟨List.mem_of_find?_eq_some hf, by simpa using List.find?_some hf⟩

theorem wf_cancel {s : St} (h : WF s) (i : Nat) : WF (cancel i s) := by
  unfold cancel
  refine ⟨(List.filter_sublist.map _).nodup h.obsNd, fun o ho => h.obsLt o (List.mem_filter.1 ho).1, h.resNd, h.resLt,
    h.short, h.uniq, ?_, List.filter_sublist.nodup h.nd, h.logLt⟩
  intro e he
  dsimp only [dropObs] at he
  obtain ⟨he, hi⟩ := List.mem_filter.1 he
  obtain ⟨⟨o, ho, hoe⟩, h2⟩ := h.ents e he
  refine ⟨⟨o, List.mem_filter.2 ⟨ho, ?_⟩, hoe⟩, h2⟩
  rw [hoe]; exact hi

theorem wf_cancels {l : List Nat} : ∀ {s : St}, WF s → WF (l.foldl (fun s i => cancel i s) s) := by
  induction l with
  | nil => intro s h; exact h
  | cons i l ih => intro s h; exact ih (wf_cancel h i)

theorem wf_register {env : Env} {s : St} (h : WF s) (ep : Nat) : WF (register env ep s) := by
  unfold register
  dsimp only
  have h := wf_cancels (l := (s.obs.filter fun o => o.ep == ep).map (·.id)) h
  generalize List.foldl (fun s i => cancel i s) s ((s.obs.filter fun o => o.ep == ep).map (·.id)) = t at h
  refine ⟨?_, ?_, h.resNd, h.resLt, h.short, h.uniq, ?_, h.nd, ?_⟩
  · dsimp only
    rw [List.map_append, List.nodup_append]
    refine ⟨h.obsNd, by simp, ?_⟩
    intro a ha b hb hab
    obtain ⟨o, ho, rfl⟩ := List.mem_map.1 ha
    simp only [List.map_cons, List.map_nil, List.mem_singleton] at hb
    have := h.obsLt o ho
    omega
  · intro o ho
    dsimp only at ho ⊢
    rcases List.mem_append.1 ho with ho | ho
    · have := h.obsLt o ho; omega
    · simp only [List.mem_singleton] at ho; rw [ho]; exact Nat.lt_succ_self _
  · intro e he
    obtain ⟨⟨o, ho, hoe⟩, h2⟩ := h.ents e he
    exact ⟨⟨o, List.mem_append_left _ ho, hoe⟩, h2⟩
  · intro i hi
    dsimp only at hi ⊢
    rcases List.mem_append.1 hi with hi | hi
    · have := h.logLt i hi; omega
    · obtain ⟨r, _, rfl⟩ := List.mem_map.1 hi
      exact Nat.lt_succ_self _

theorem wf_create {s : St} (h : WF s) {u : Bytes} (hu : u.length ≤ 256) :
    WF { s with res := s.res ++ [⟨s.nextRes, u, 0, false⟩], nextRes := s.nextRes + 1 } := by
  refine ⟨h.obsNd, h.obsLt, ?_, ?_, ?_, ?_, ?_, h.nd, h.logLt⟩
  · dsimp only
    rw [List.map_append, List.nodup_append]
    refine ⟨h.resNd, by simp, ?_⟩
    intro a ha b hb hab
    obtain ⟨o, ho, rfl⟩ := List.mem_map.1 ha
    simp only [List.map_cons, List.map_nil, List.mem_singleton] at hb
    have := h.resLt o ho
    omega
  · intro o ho
    dsimp only at ho ⊢
    rcases List.mem_append.1 ho with ho | ho
    · have := h.resLt o ho; omega
    · simp only [List.mem_singleton] at ho; rw [ho]; exact Nat.lt_succ_self _
  · intro o ho
    rcases List.mem_append.1 ho with ho | ho
    · exact h.short o ho
    · simp only [List.mem_singleton] at ho; rw [ho]; exact hu
  · intro a ha b hb hla hlb
    rcases List.mem_append.1 ha with ha | ha
    · rcases List.mem_append.1 hb with hb | hb
      · exact h.uniq a ha b hb hla hlb
      · simp only [List.mem_singleton] at hb; rw [hb] at hlb; cases hlb
    · simp only [List.mem_singleton] at ha; rw [ha] at hla; cases hla
  · intro e he
    obtain ⟨h1, h2⟩ := h.ents e he
    refine ⟨h1, ?_⟩
    cases ht : e.tgt with
    | res i =>
      rw [ht] at h2
      obtain ⟨r, hr, hh⟩ := h2
      exact ⟨r, List.mem_append_left _ hr, hh⟩
    | gone u => rw [ht] at h2; exact h2

/-- Changing resources in place, keeping number and uri, not taking any off the
list. -/
theorem wf_map {s : St} (h : WF s) {f : Res → Res} (hid : ∀ r, (f r).id = r.id) (huri : ∀ r, (f r).uri = r.uri)
    (hl : ∀ r, r.listed = true → (f r).listed = true)
    (hu : ∀ a ∈ s.res, ∀ b ∈ s.res, (f a).listed = true → (f b).listed = true → a.uri = b.uri → a.id = b.id) :
    WF { s with res := s.res.map f } := by
  refine ⟨h.obsNd, h.obsLt, ?_, ?_, ?_, ?_, ?_, h.nd, h.logLt⟩
  · dsimp only
    rw [List.map_map]
    have : ((fun x : Res => x.id) ∘ f) = fun x => x.id := by funext x; exact hid x
    rw [this]; exact h.resNd
  · intro r hr
    obtain ⟨x, hx, rfl⟩ := List.mem_map.1 hr
    rw [hid]; exact h.resLt x hx
  · intro r hr
    obtain ⟨x, hx, rfl⟩ := List.mem_map.1 hr
    rw [huri]; exact h.short x hx
  · intro a ha b hb la lb hab
    obtain ⟨x, hx, rfl⟩ := List.mem_map.1 ha
    obtain ⟨y, hy, rfl⟩ := List.mem_map.1 hb
    rw [huri, huri] at hab
    rw [hid, hid]
    exact hu x hx y hy la lb hab
  · intro e he
    obtain ⟨h1, h2⟩ := h.ents e he
    refine ⟨h1, ?_⟩
    cases ht : e.tgt with
    | res i =>
      rw [ht] at h2
      obtain ⟨r, hr, hi, hh⟩ := h2
      exact ⟨f r, List.mem_map_of_mem hr, by rw [hid]; exact hi, hl r hh⟩
    | gone u => rw [ht] at h2; exact h2

/-- Another flag. -/
theorem wf_sched {s : St} (h : WF s) (b : Bool) : WF { s with sched := b } :=
  ⟨h.obsNd, h.obsLt, h.resNd, h.resLt, h.short, h.uniq, h.ents, h.nd, h.logLt⟩

theorem wf_xfers {s : St} (h : WF s) (x : List Xf) (b : Bool) : WF { s with xfers := x, sched := b } :=
  ⟨h.obsNd, h.obsLt, h.resNd, h.resLt, h.short, h.uniq, h.ents, h.nd, h.logLt⟩

/-- The list of resources after `r` was listed. -/
def listRes (r : Res) (s : St) : St :=
  { s with res := s.res.map fun x => if x.id == r.id then { x with listed := true } else x }

theorem wf_list {s : St} (h : WF s) {r : Res} (hr : r ∈ s.res) (hu : inUse r.uri s = false) :
    WF (listRes r s) := by
  apply wf_map h
  · intro x; split <;> rfl
  · intro x; split <;> rfl
  · intro x hx; split
    · rfl
    · exact hx
  · have key : ∀ x ∈ s.res, x.listed = true → x.uri ≠ r.uri := by
      intro x hx hl hxu
      have : inUse r.uri s = true := by
        unfold inUse
        rw [List.any_eq_true]
        exact ⟨x, hx, by simp [hl, hxu]⟩
      rw [hu] at this; cases this
    intro a ha b hb la lb hab
    by_cases h1 : a.id = r.id
    · by_cases h2 : b.id = r.id
      · rw [h1, h2]
      · have e := res_unique h.resNd ha hr h1
        rw [if_neg (by simpa using h2)] at lb
        rw [e] at hab
        exact absurd hab.symm (key b hb lb)
    · rw [if_neg (by simpa using h1)] at la
      by_cases h2 : b.id = r.id
      · have e := res_unique h.resNd hb hr h2
        rw [e] at hab
        exact absurd hab (key a ha la)
      · rw [if_neg (by simpa using h2)] at lb
        exact h.uniq a ha b hb la lb hab

theorem wf_addRes {env : Env} {luck : Luck} {s : St} (h : WF s) {r : Res} (hr : r ∈ s.res) :
    WF (addRes env luck r s) := by
  unfold addRes
  split
  · exact h
  · rename_i hc
    simp only [Bool.or_eq_true, not_or, Bool.not_eq_true] at hc
    refine wf_sched (wf_addBatch (wf_list h hr hc.2) ?_) true
    refine ⟨_, List.mem_map_of_mem hr, ?_, ?_⟩ <;> simp

/-- The list of resources after `r` changed. -/
def bump (r : Res) (s : St) : St :=
  { s with res := s.res.map fun x => if x.id == r.id then { x with ver := x.ver + 1 } else x }

theorem bump_listed (r x : Res) : (if x.id == r.id then { x with ver := x.ver + 1 } else x : Res).listed = x.listed := by
  split <;> rfl

theorem wf_bump {s : St} (h : WF s) (r : Res) : WF (bump r s) := by
  apply wf_map h
  · intro x; split <;> rfl
  · intro x; split <;> rfl
  · intro x hx; rw [bump_listed]; exact hx
  · intro a ha b hb la lb hab
    rw [bump_listed] at la lb
    exact h.uniq a ha b hb la lb hab

theorem wf_changeRes {env : Env} {luck : Luck} {s : St} (h : WF s) {r : Res} (hr : r ∈ s.res)
    (hl : r.listed = true) : WF (changeRes env luck r s) := by
  unfold changeRes
  refine wf_addBatch (wf_bump h r) ?_
  refine ⟨_, List.mem_map_of_mem hr, ?_, ?_⟩
  · split <;> rfl
  · rw [bump_listed]; exact hl

theorem wf_drop {s : St} (h : WF s) (i : Nat) : WF { s with queue := dropRes i s.queue } :=
  ⟨h.obsNd, h.obsLt, h.resNd, h.resLt, h.short, h.uniq, fun e he => h.ents e (List.mem_filter.1 he).1,
    List.filter_sublist.nodup h.nd, h.logLt⟩

/-- A resource no entry names can be taken away. -/
theorem wf_free {s : St} (h : WF s) (i : Nat) (hq : ∀ e ∈ s.queue, e.tgt ≠ .res i) :
    WF { s with res := s.res.filter fun x => !(x.id == i) } := by
  refine ⟨h.obsNd, h.obsLt, (List.filter_sublist.map _).nodup h.resNd, fun r hr => h.resLt r (List.mem_filter.1 hr).1,
    fun r hr => h.short r (List.mem_filter.1 hr).1, ?_, ?_, h.nd, h.logLt⟩
  · intro a ha b hb
    exact h.uniq a (List.mem_filter.1 ha).1 b (List.mem_filter.1 hb).1
  · intro e he
    obtain ⟨h1, h2⟩ := h.ents e he
    refine ⟨h1, ?_⟩
    cases ht : e.tgt with
    | res j =>
      rw [ht] at h2
      obtain ⟨r, hr, hi, hh⟩ := h2
      refine ⟨r, List.mem_filter.2 ⟨hr, ?_⟩, hi, hh⟩
      have := hq e he
      rw [ht] at this
      have hji : j ≠ i := fun hh => this (by rw [hh])
      rw [hi]
      simpa using hji
    | gone u => rw [ht] at h2; exact h2

theorem addBatch_tgts {env : Env} {luck : Luck} {r : Res} {d : Bool} {s : St} (hn : (s.obs.map (·.id)).Nodup) {i : Nat}
    (hq : ∀ e ∈ s.queue, e.tgt ≠ .res i) : ∀ e ∈ (addBatch env luck r true d s).queue, e.tgt ≠ .res i := by
  obtain ⟨add, h1, _, _, _⟩ := addLoop_spec env luck r true s.obs s.queue hn
  intro e he
  unfold addBatch at he
  dsimp only at he
  rw [h1, List.mem_append] at he
  rcases he with he | he
  · exact hq e he
  · obtain ⟨o, _, rfl⟩ := List.mem_map.1 he
    intro hh
    cases hh

theorem wf_deleteRes {env : Env} {luck : Luck} {s : St} (h : WF s) {r : Res} (hr : r ∈ s.res) :
    WF (deleteRes env luck r s) := by
  unfold deleteRes
  dsimp only
  split
  · have hd := wf_drop h r.id
    have ha := wf_sched (wf_addBatch (env := env) (luck := luck) (r := r) (rm := true) (d := false) hd (h.short r hr)) true
    refine wf_free ha r.id ?_
    refine addBatch_tgts (d := false) (s := { s with queue := dropRes r.id s.queue }) h.obsNd ?_
    intro e he hh
    have := (List.mem_filter.1 he).2
    rw [hh] at this
    simp at this
  · rename_i hl
    refine wf_free h r.id ?_
    intro e he hh
    obtain ⟨_, h2⟩ := h.ents e he
    rw [hh] at h2
    obtain ⟨x, hx, hid, hxl⟩ := h2
    rw [res_unique h.resNd hx hr hid] at hxl
    exact hl hxl

/-- Every step of a history that meets the preconditions is defined and keeps the
structure. -/
theorem wf_step {env : Env} {s : St} {l : Luck} {op : Op} (h : WF s) (ha : safe s l op) :
    ∃ s', step env s l op = .ok s' ∧ WF s' := by
  unfold step
  cases op with
  | register ep => exact ⟨_, rfl, wf_register h ep⟩
  | cancel i => exact ⟨_, rfl, wf_cancel h i⟩
  | create u => exact ⟨_, rfl, wf_create h ha⟩
  | add i =>
    dsimp only
    cases hf : s.res.find? (fun r => r.id == i) with
    | none => exact ⟨s, rfl, h⟩
    | some r => exact ⟨_, rfl, wf_addRes h (find_res h hf).1⟩
  | change i =>
    dsimp only
    cases hf : s.res.find? (fun r => r.id == i) with
    | none => exact ⟨s, rfl, h⟩
    | some r =>
      obtain ⟨x, hx, hi, hl⟩ := ha
      obtain ⟨hr, hri⟩ := find_res h hf
      rw [res_unique h.resNd hx hr (hi.trans hri.symm)] at hl
      exact ⟨_, rfl, wf_changeRes h hr hl⟩
  | delete i =>
    dsimp only
    cases hf : s.res.find? (fun r => r.id == i) with
    | none => exact ⟨s, rfl, h⟩
    | some r => exact ⟨_, rfl, wf_deleteRes h (find_res h hf).1⟩
  | tick =>
    dsimp only
    split
    · unfold process
      split
      · exact ⟨_, rfl, wf_sched h false⟩
      · obtain ⟨s', h1, h2, _⟩ := proc_wf (env := env) (luck := l) s.queue.length (wf_sched h false)
        exact ⟨s', h1, h2⟩
    · exact ⟨s, rfl, h⟩
  | xferStart ep => exact ⟨_, rfl, wf_xfers h _ _⟩
  | xferEnd ep => exact ⟨_, rfl, wf_xfers h _ _⟩

theorem reach_wf {env : Env} {s : St} (h : Reach env safe s) : WF s := by
  induction h with
  | init => exact wf_init
  | step _ ha hs ih =>
    obtain ⟨s', h1, h2⟩ := wf_step (env := env) ih ha
    rw [h1] at hs
    injection hs with hs
    exact hs ▸ h2

theorem reach_mono {env : Env} {p q : St → Luck → Op → Prop} (hpq : ∀ s l op, p s l op → q s l op) {s : St}
    (h : Reach env p s) : Reach env q s := by
  induction h with
  | init => exact .init
  | step _ ha hs ih => exact .step ih (hpq _ _ _ ha) hs

end Verif.Batch
