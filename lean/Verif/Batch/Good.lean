import Verif.Batch.Sync

namespace Verif.Batch

/-- A processing is due, or everything pending waits for a transfer. -/
def Live (s : St) : Prop := s.sched = true ∨ Waiting s

/-- The invariant of histories without a failure. -/
structure Inv (env : Env) (s : St) : Prop where
  wf : WF s
  sync : Sync env s
  cb : AllCb s
  live : Live s
  named : ∀ r ∈ s.res, r.uri ≠ []

theorem inv_init (env : Env) : Inv env init := by
  refine ⟨wf_init, ?_, ?_, Or.inr ?_, ?_⟩
  · intro o ho; cases ho
  · intro x hx; cases hx
  · intro e he; cases he
  · intro r hr; cases hr

theorem sync_cancel {env : Env} {s : St} (hs : Sync env s) (i : Nat) : Sync env (cancel i s) := by
  intro o ho u hacl hsh
  have hm := List.mem_filter.1 ho
  obtain ⟨h1, h2⟩ := hs o hm.1 u hacl hsh
  have : pendLast (cancel i s) o.id u = pendLast s o.id u := by
    refine pendLast_sub (k := fun e => !(e.obs == i)) rfl rfl ?_
    intro e _ he _
    rw [he]; exact hm.2
  rw [this]
  exact ⟨h1, h2⟩

theorem waiting_cancel {s : St} (hw : Waiting s) (i : Nat) : Waiting (cancel i s) := by
  intro e he
  obtain ⟨he, hi⟩ := List.mem_filter.1 he
  obtain ⟨o, ho, hoe, hb⟩ := hw e he
  exact ⟨o, List.mem_filter.2 ⟨ho, by rw [hoe]; exact hi⟩, hoe, hb⟩

theorem inv_cancel {env : Env} {s : St} (h : Inv env s) (i : Nat) : Inv env (cancel i s) :=
  ⟨wf_cancel h.wf i, sync_cancel h.sync i, h.cb, h.live.elim Or.inl (fun hw => Or.inr (waiting_cancel hw i)), h.named⟩

theorem inv_cancels {env : Env} {l : List Nat} : ∀ {s : St}, Inv env s → Inv env (l.foldl (fun s i => cancel i s) s) := by
  induction l with
  | nil => intro s h; exact h
  | cons i l ih => intro s h; exact ih (inv_cancel h i)

/-- What a new observer is told in answer is how things are. -/
theorem view_first {env : Env} {s : St} (h : WF s) {ep : Nat} {u : Bytes} (hacl : env.acl u ep = true)
    (hsh : env.shown u ep = true) :
    view (s.log ++ (s.res.filter fun r => r.listed && env.acl r.uri ep && env.shown r.uri ep).map
      fun r => ⟨s.nextObs, r.uri, some (r.id, r.ver)⟩) s.nextObs u = cur s u := by
  unfold view
  have hold : s.log.filter (fun i => i.obs == s.nextObs && i.uri == u) = [] := by
    rw [List.filter_eq_nil_iff]
    intro i hi hp
    simp only [Bool.and_eq_true, beq_iff_eq] at hp
    have := h.logLt i hi
    omega
  rw [List.filter_append, hold, List.nil_append]
  cases hg : (((s.res.filter fun r => r.listed && env.acl r.uri ep && env.shown r.uri ep).map
      fun r => (⟨s.nextObs, r.uri, some (r.id, r.ver)⟩ : Item)).filter fun i => i.obs == s.nextObs && i.uri == u).getLast? with
  | none =>
    rw [List.getLast?_eq_none_iff, List.filter_eq_nil_iff] at hg
    symm
    apply cur_none
    intro r hr hl hu
    refine hg ⟨s.nextObs, r.uri, some (r.id, r.ver)⟩ (List.mem_map.2 ⟨r, List.mem_filter.2 ⟨hr, ?_⟩, rfl⟩) ?_
    · rw [hu, hl, hacl, hsh]; rfl
    · simp [hu]
  | some i =>
    obtain ⟨hi, hp⟩ := List.mem_filter.1 (List.mem_of_getLast? hg)
    obtain ⟨r, hr, rfl⟩ := List.mem_map.1 hi
    obtain ⟨hr, hc⟩ := List.mem_filter.1 hr
    simp only [Bool.and_eq_true, beq_iff_eq] at hp hc
    have := cur_some h hr hc.1.1
    rw [← hp.2, this]
    rfl

theorem inv_register {env : Env} {s : St} (h : Inv env s) (ep : Nat) : Inv env (register env ep s) := by
  have hwf := wf_register (env := env) h.wf ep
  have ht := inv_cancels (l := (s.obs.filter fun o => o.ep == ep).map (·.id)) h
  unfold register at hwf ⊢
  dsimp only at hwf ⊢
  generalize List.foldl (fun s i => cancel i s) s ((s.obs.filter fun o => o.ep == ep).map (·.id)) = t at ht hwf
  refine ⟨hwf, ?_, ht.cb, ?_, ht.named⟩
  · intro o ho u hacl hsh
    dsimp only at ho
    rcases List.mem_append.1 ho with ho | ho
    · obtain ⟨h1, h2⟩ := ht.sync o ho u hacl hsh
      refine ⟨h1, fun hp => ?_⟩
      dsimp only
      rw [view_other]
      · exact h2 hp
      · intro i hi
        obtain ⟨r, _, rfl⟩ := List.mem_map.1 hi
        have := ht.wf.obsLt o ho
        dsimp only
        omega
    · simp only [List.mem_singleton] at ho
      subst ho
      have hn : pendLast t t.nextObs u = none := by
        unfold pendLast
        rw [List.getLast?_eq_none_iff, List.filter_eq_nil_iff]
        intro e he hp
        simp only [Bool.and_eq_true, beq_iff_eq] at hp
        obtain ⟨⟨o, ho, hoe⟩, _⟩ := ht.wf.ents e he
        have := ht.wf.obsLt o ho
        omega
      refine ⟨fun e he => ?_, fun _ => ?_⟩
      · have he : pendLast t t.nextObs u = some e := he
        rw [hn] at he; cases he
      · exact view_first ht.wf hacl hsh
  · rcases ht.live with hl | hl
    · exact Or.inl hl
    · right
      intro e he
      obtain ⟨o, ho, hh⟩ := hl e he
      exact ⟨o, List.mem_append_left _ ho, hh⟩

theorem inv_create {env : Env} {s : St} (h : Inv env s) {u : Bytes} (hu : u.length ≤ 256) (hne : u ≠ []) :
    Inv env { s with res := s.res ++ [⟨s.nextRes, u, 0, false⟩], nextRes := s.nextRes + 1 } := by
  refine ⟨wf_create h.wf hu, ?_, h.cb, h.live, ?_⟩
  · intro o ho v hacl hsh
    obtain ⟨h1, h2⟩ := h.sync o ho v hacl hsh
    have hc : cur { s with res := s.res ++ [⟨s.nextRes, u, 0, false⟩], nextRes := s.nextRes + 1 } v = cur s v := by
      unfold cur
      dsimp only
      rw [List.find?_append]
      simp
    have hp : pendLast { s with res := s.res ++ [⟨s.nextRes, u, 0, false⟩], nextRes := s.nextRes + 1 } o.id v =
        pendLast s o.id v := by
      refine pendLast_congr rfl ?_
      intro e he
      apply about_append
      intro hh
      obtain ⟨_, h3⟩ := h.wf.ents e he
      rw [hh] at h3
      obtain ⟨r, hr, hi, _⟩ := h3
      have := h.wf.resLt r hr
      dsimp only at hi
      omega
    rw [hc, hp]
    exact ⟨h1, h2⟩
  · intro r hr
    rcases List.mem_append.1 hr with hr | hr
    · exact h.named r hr
    · simp only [List.mem_singleton] at hr; rw [hr]; exact hne

/-- A resource in place of which the same one stands, with the same number and
uri. -/
theorem cur_map {s : St} {f : Res → Res} {u : Bytes}
    (hf : ∀ r ∈ s.res, r.uri = u → f r = r) (huri : ∀ r, (f r).uri = r.uri) :
    cur { s with res := s.res.map f } u = cur s u := by
  unfold cur
  dsimp only
  have : ∀ l : List Res, (∀ r ∈ l, r.uri = u → f r = r) →
      ((l.map f).find? fun r => r.listed && r.uri == u) = l.find? fun r => r.listed && r.uri == u := by
    intro l
    induction l with
    | nil => intro _; rfl
    | cons r l ih =>
      intro hl
      rw [List.map_cons, List.find?_cons, List.find?_cons, ih (fun x hx => hl x (List.mem_cons_of_mem _ hx))]
      by_cases hu : r.uri = u
      · rw [hl r List.mem_cons_self hu]
      · have e1 : (r.uri == u) = false := by simpa using hu
        have e2 : ((f r).uri == u) = false := by rw [huri]; exact e1
        rw [e1, e2]
        simp
  rw [this s.res hf]

/-- Telling a change of `r`: `s` has the resources as they are now, all but the
uri of `r` were in step. -/
theorem sync_tell {env : Env} {luck : Luck} (hl : lucky luck) {r : Res} {d : Bool} {s : St} (h : WF s)
    {x : Res} (hx : x ∈ s.res) (hxi : x.id = r.id) (hxu : x.uri = r.uri) (hxl : x.listed = true)
    (hother : ∀ o ∈ s.obs, ∀ u, u ≠ r.uri → env.acl u o.ep = true → env.shown u o.ep = true →
      (∀ e, pendLast s o.id u = some e → okT e.tgt (cur s u)) ∧
      (pendLast s o.id u = none → view s.log o.id u = cur s u))
    (hdup : ∀ o ∈ s.obs, env.acl r.uri o.ep = true → env.shown r.uri o.ep = true → dup s.queue o r false = true →
      ∃ e, pendLast s o.id r.uri = some e ∧ e.tgt = .res r.id) :
    Sync env (addBatch env luck r false d s) := by
  have habout : ∀ u (o : Obs), about s.res u (mk r false o).tgt = (r.uri == u) := by
    intro u o
    show about s.res u (.res r.id) = _
    rw [← hxi, about_res h hx, hxu]
  intro o ho u hacl hsh
  by_cases hu : u = r.uri
  · subst hu
    have hcur : cur (addBatch env luck r false d s) r.uri = some (x.id, x.ver) := by
      rw [← hxu]; exact cur_some h hx hxl
    rw [hcur]
    have key : ∃ e, pendLast (addBatch env luck r false d s) o.id r.uri = some e ∧ e.tgt = .res r.id := by
      rcases (pend_add (env := env) (luck := luck) (r := r) (rm := false) (d := d) h ho r.uri).2 hl.1 hacl
        (by intro hh; cases hh) (by rw [habout]; simp) with hp | ⟨hd, hp⟩
      · exact ⟨_, hp, rfl⟩
      · rw [hp]
        exact hdup o ho hacl hsh hd
    obtain ⟨e, he, ht⟩ := key
    refine ⟨fun e' he' => ?_, fun hn => ?_⟩
    · rw [he] at he'
      injection he' with he'
      subst he'
      rw [ht, ← hxi]
      exact ⟨x.ver, rfl⟩
    · rw [he] at hn; cases hn
  · have hp := (pend_add (env := env) (luck := luck) (r := r) (rm := false) (d := d) h ho u).1
      (by rw [habout]; simpa using fun hh => hu hh.symm)
    rw [hp]
    exact hother o ho u hu hacl hsh

theorem dup_false_iff {q : List Ent} {o : Obs} {r : Res} :
    dup q o r false = true ↔ (⟨o.id, .res r.id⟩ : Ent) ∈ q := by
  unfold dup
  rw [List.any_eq_true]
  constructor
  · rintro ⟨e, he, hp⟩
    simp only [Bool.and_eq_true, beq_iff_eq] at hp
    obtain ⟨h1, h2⟩ := hp
    cases ht : e.tgt with
    | res i =>
      rw [ht] at h2
      have : e = ⟨o.id, .res r.id⟩ := by
        cases e; simp only at h1 ht h2; rw [h1, ht]; simp at h2; rw [h2]
      rw [← this]; exact he
    | gone u => rw [ht] at h2; simp at h2
  · intro he
    exact ⟨_, he, by simp⟩

theorem inv_addRes {env : Env} {luck : Luck} (hl : lucky luck) {s : St} (h : Inv env s) {r : Res} (hr : r ∈ s.res) :
    Inv env (addRes env luck r s) := by
  have hwf := wf_addRes (env := env) (luck := luck) h.wf hr
  unfold addRes at hwf ⊢
  split at hwf
  · rename_i hc; rw [if_pos hc]; exact h
  · rename_i hc
    rw [if_neg hc]
    simp only [Bool.or_eq_true, not_or, Bool.not_eq_true] at hc
    have hid : ∀ x : Res, (if x.id == r.id then { x with listed := true } else x : Res).id = x.id := by
      intro x; split <;> rfl
    have huri : ∀ x : Res, (if x.id == r.id then { x with listed := true } else x : Res).uri = x.uri := by
      intro x; split <;> rfl
    refine ⟨hwf, ?_, h.cb, Or.inl rfl, ?_⟩
    · have hw := wf_list h.wf hr hc.2
      have hx : ({ r with listed := true } : Res) ∈ (listRes r s).res := by
        refine List.mem_map.2 ⟨r, hr, ?_⟩
        simp
      have hs := sync_tell (env := env) (d := false) hl (r := r) hw hx rfl rfl rfl ?_ ?_
      · exact hs
      · intro o ho u hu hacl hsh
        obtain ⟨h1, h2⟩ := h.sync o ho u hacl hsh
        have hcur : cur (listRes r s) u = cur s u := by
          apply cur_map
          · intro x hxm hxu
            rw [if_neg]
            intro hh
            have hh : x.id = r.id := by simpa using hh
            rw [res_unique h.wf.resNd hxm hr hh] at hxu
            exact hu hxu.symm
          · exact huri
        have hp : pendLast (listRes r s) o.id u = pendLast s o.id u :=
          pendLast_congr rfl (fun e _ => about_map hid huri u e.tgt)
        rw [hcur, hp]
        exact ⟨h1, h2⟩
      · intro o ho _ _ hd
        rw [dup_false_iff] at hd
        obtain ⟨_, h3⟩ := h.wf.ents _ hd
        obtain ⟨x, hx, hxi, hxl⟩ := h3
        rw [res_unique h.wf.resNd hx hr hxi, hc.1] at hxl
        cases hxl
    · intro x hx
      obtain ⟨y, hy, rfl⟩ := List.mem_map.1 hx
      rw [huri]
      exact h.named y hy

theorem inv_changeRes {env : Env} {luck : Luck} (hl : lucky luck) {s : St} (h : Inv env s) {r : Res} (hr : r ∈ s.res)
    (hlist : r.listed = true) : Inv env (changeRes env luck r s) := by
  have hwf := wf_changeRes (env := env) (luck := luck) h.wf hr hlist
  have hid : ∀ x : Res, (if x.id == r.id then { x with ver := x.ver + 1 } else x : Res).id = x.id := by
    intro x; split <;> rfl
  have huri : ∀ x : Res, (if x.id == r.id then { x with ver := x.ver + 1 } else x : Res).uri = x.uri := by
    intro x; split <;> rfl
  unfold changeRes at hwf ⊢
  refine ⟨hwf, ?_, h.cb, Or.inl ?_, ?_⟩
  · have hw := wf_bump h.wf r
    have hx : ({ r with ver := r.ver + 1 } : Res) ∈ (bump r s).res := by
      refine List.mem_map.2 ⟨r, hr, ?_⟩
      simp
    have hs := sync_tell (env := env) (d := true) hl (r := r) hw hx rfl rfl hlist ?_ ?_
    · exact hs
    · intro o ho u hu hacl hsh
      obtain ⟨h1, h2⟩ := h.sync o ho u hacl hsh
      have hcur : cur (bump r s) u = cur s u := by
        apply cur_map
        · intro x hxm hxu
          rw [if_neg]
          intro hh
          have hh : x.id = r.id := by simpa using hh
          rw [res_unique h.wf.resNd hxm hr hh] at hxu
          exact hu hxu.symm
        · exact huri
      have hp : pendLast (bump r s) o.id u = pendLast s o.id u :=
        pendLast_congr rfl (fun e _ => about_map hid huri u e.tgt)
      rw [hcur, hp]
      exact ⟨h1, h2⟩
    · intro o ho hacl hsh hd
      rw [dup_false_iff] at hd
      obtain ⟨h1, _⟩ := h.sync o ho r.uri hacl hsh
      have hp : pendLast (bump r s) o.id r.uri = pendLast s o.id r.uri :=
        pendLast_congr rfl (fun e _ => about_map hid huri r.uri e.tgt)
      rw [hp]
      cases hg : pendLast s o.id r.uri with
      | none =>
        unfold pendLast at hg
        rw [List.getLast?_eq_none_iff, List.filter_eq_nil_iff] at hg
        refine absurd ?_ (hg _ hd)
        simp [about_res h.wf hr]
      | some e =>
        refine ⟨e, rfl, ?_⟩
        have hk := h1 e hg
        rw [cur_some h.wf hr hlist] at hk
        cases ht : e.tgt with
        | gone u => rw [ht] at hk; cases hk
        | res i =>
          rw [ht] at hk
          obtain ⟨v, hv⟩ := hk
          injection hv with hv
          injection hv with hv _
          rw [hv]
  · obtain ⟨add, _, _, _, h4⟩ := addLoop_spec env luck r false s.obs s.queue h.wf.obsNd
    unfold addBatch
    dsimp only
    rw [(h4 hl.1).1]
    simp
  · intro x hx
    obtain ⟨y, hy, rfl⟩ := List.mem_map.1 hx
    rw [huri]
    exact h.named y hy

/-- A resource that is not listed is no concern of any observer. -/
theorem cur_free {s : St} {r : Res} {u : Bytes} (h : WF s) (hr : r ∈ s.res)
    (hd : r.listed = false ∨ r.uri ≠ u) :
    cur { s with res := s.res.filter fun x => !(x.id == r.id) } u = cur s u := by
  unfold cur
  dsimp only
  rw [List.find?_filter]
  congr 1
  have : ∀ l : List Res, (∀ x ∈ l, x.id = r.id → x = r) →
      (l.find? fun x => !(x.id == r.id) && (x.listed && x.uri == u)) = l.find? fun x => x.listed && x.uri == u := by
    intro l
    induction l with
    | nil => intro _; rfl
    | cons x l ih =>
      intro hu
      rw [List.find?_cons, List.find?_cons, ih (fun y hy => hu y (List.mem_cons_of_mem _ hy))]
      by_cases he : x.id = r.id
      · rw [hu x List.mem_cons_self he]
        rcases hd with hd | hd
        · simp [hd]
        · have : (r.uri == u) = false := by simpa using hd
          simp [this]
      · have : (x.id == r.id) = false := by simpa using he
        simp [this]
  have := this s.res (fun x hx he => res_unique h.resNd hx hr he)
  refine Eq.trans ?_ this
  congr 1
  funext x
  rw [Bool.eq_iff_iff]
  simp

theorem cur_gone {s : St} {r : Res} (h : WF s) (hr : r ∈ s.res) (hl : r.listed = true) :
    cur { s with res := s.res.filter fun x => !(x.id == r.id) } r.uri = none := by
  apply cur_none
  intro x hx hxl hxu
  obtain ⟨hx, hne⟩ := List.mem_filter.1 hx
  have := h.uniq x hx r hr hxl hl hxu
  simp [this] at hne

theorem inv_deleteRes {env : Env} {luck : Luck} (hl : lucky luck) {s : St} (h : Inv env s) {r : Res} (hr : r ∈ s.res) :
    Inv env (deleteRes env luck r s) := by
  have hwf := wf_deleteRes (env := env) (luck := luck) h.wf hr
  unfold deleteRes at hwf ⊢
  dsimp only at hwf ⊢
  by_cases hlist : r.listed = true
  · simp only [if_pos hlist] at hwf ⊢
    have hd := wf_drop h.wf r.id
    refine ⟨hwf, ?_, h.cb, Or.inl rfl, fun x hx => h.named x (List.mem_filter.1 hx).1⟩
    intro o ho u hacl hsh
    have ho : o ∈ s.obs := ho
    obtain ⟨h1, h2⟩ := h.sync o ho u hacl hsh
    -- the entries after the change, seen with the resources before it
    have hsame : pendLast { { addBatch env luck r true false { s with queue := dropRes r.id s.queue } with sched := true } with
          res := s.res.filter fun x => !(x.id == r.id) } o.id u =
        pendLast (addBatch env luck r true false { s with queue := dropRes r.id s.queue }) o.id u := by
      refine pendLast_congr rfl ?_
      intro e he
      apply about_filter
      refine addBatch_tgts (d := false) (s := { s with queue := dropRes r.id s.queue }) h.wf.obsNd ?_ e he
      intro e he hh
      have := (List.mem_filter.1 he).2
      rw [hh] at this
      simp at this
    have hgoal : (∀ e, pendLast (addBatch env luck r true false { s with queue := dropRes r.id s.queue }) o.id u = some e →
          okT e.tgt (cur { s with res := s.res.filter fun x => !(x.id == r.id) } u)) ∧
        (pendLast (addBatch env luck r true false { s with queue := dropRes r.id s.queue }) o.id u = none →
          view s.log o.id u = cur { s with res := s.res.filter fun x => !(x.id == r.id) } u) := by
      by_cases hu : u = r.uri
      · subst hu
        rw [cur_gone h.wf hr hlist]
        have key : ∃ e, pendLast (addBatch env luck r true false { s with queue := dropRes r.id s.queue }) o.id r.uri = some e ∧
            ∃ v, e.tgt = .gone v := by
          rcases (pend_add (env := env) (luck := luck) (r := r) (rm := true) (d := false) hd ho r.uri).2 hl.1 hacl
            (fun _ => h.named r hr) (by simp [mk, about]) with hp | ⟨hdup, hp⟩
          · exact ⟨_, hp, r.uri, rfl⟩
          · rw [hp]
            -- an entry for the removal of this uri is there; no entry for another resource can be
            unfold dup at hdup
            rw [List.any_eq_true] at hdup
            obtain ⟨e, he, hpp⟩ := hdup
            simp only [Bool.and_eq_true, beq_iff_eq] at hpp
            have hab : about s.res r.uri e.tgt = true := by
              cases ht : e.tgt with
              | gone v => rw [ht] at hpp; simpa [about] using hpp.2
              | res i =>
                rw [ht] at hpp
                have hi : i = r.id := by simpa using hpp.2
                rw [hi, about_res h.wf hr]; simp
            cases hg : pendLast { s with queue := dropRes r.id s.queue } o.id r.uri with
            | none =>
              unfold pendLast at hg
              rw [List.getLast?_eq_none_iff, List.filter_eq_nil_iff] at hg
              exact absurd (by simp [hpp.1, hab]) (hg e he)
            | some e' =>
              refine ⟨e', rfl, ?_⟩
              unfold pendLast at hg
              obtain ⟨hm, hq⟩ := List.mem_filter.1 (List.mem_of_getLast? hg)
              obtain ⟨hm, hk⟩ := List.mem_filter.1 hm
              simp only [Bool.and_eq_true, beq_iff_eq] at hq
              cases ht : e'.tgt with
              | gone v => exact ⟨v, rfl⟩
              | res i =>
                exfalso
                obtain ⟨_, h3⟩ := h.wf.ents e' hm
                rw [ht] at h3
                obtain ⟨x, hx, hxi, hxl⟩ := h3
                rw [ht, ← hxi, about_res h.wf hx] at hq
                have := h.wf.uniq x hx r hr hxl hlist (by simpa using hq.2)
                rw [ht, ← hxi, this] at hk
                simp at hk
        obtain ⟨e, he, v, ht⟩ := key
        refine ⟨fun e' he' => ?_, fun hn => ?_⟩
        · rw [he] at he'
          injection he' with he'
          subst he'
          rw [ht]
          rfl
        · rw [he] at hn; cases hn
      · have hp := (pend_add (env := env) (luck := luck) (r := r) (rm := true) (d := false) hd ho u).1
          (by simpa [mk, about] using fun hh => hu hh.symm)
        have hp2 : pendLast { s with queue := dropRes r.id s.queue } o.id u = pendLast s o.id u := by
          refine pendLast_sub (k := fun e => !(e.tgt == Tgt.res r.id)) rfl rfl ?_
          intro e _ _ hab
          cases ht : e.tgt with
          | gone v => rfl
          | res i =>
            rw [ht] at hab
            have : i ≠ r.id := by
              intro hi
              rw [hi, about_res h.wf hr] at hab
              exact hu (by simpa using Eq.symm (by simpa using hab))
            simpa using this
        rw [hp, hp2, cur_free h.wf hr (Or.inr (fun hh => hu hh.symm))]
        exact ⟨h1, h2⟩
    exact ⟨fun e he => hgoal.1 e (hsame.symm.trans he), fun he => hgoal.2 (hsame.symm.trans he)⟩
  · simp only [if_neg hlist] at hwf ⊢
    refine ⟨hwf, ?_, h.cb, h.live, fun x hx => h.named x (List.mem_filter.1 hx).1⟩
    intro o ho u hacl hsh
    obtain ⟨h1, h2⟩ := h.sync o ho u hacl hsh
    rw [cur_free h.wf hr (Or.inl (by simpa using hlist))]
    have : pendLast { s with res := s.res.filter fun x => !(x.id == r.id) } o.id u = pendLast s o.id u := by
      refine pendLast_congr rfl ?_
      intro e he
      apply about_filter
      intro hh
      obtain ⟨_, h3⟩ := h.wf.ents e he
      rw [hh] at h3
      obtain ⟨x, hx, hid, hxl⟩ := h3
      rw [res_unique h.wf.resNd hx hr hid] at hxl
      exact hlist hxl
    rw [this]
    exact ⟨h1, h2⟩

theorem inv_xferEnd {env : Env} {s : St} (h : Inv env s) (ep : Nat) : Inv env (xferEnd ep s) := by
  unfold xferEnd
  refine ⟨wf_xfers h.wf _ _, h.sync, fun x hx => h.cb x (List.mem_filter.1 hx).1, ?_, h.named⟩
  rcases h.live with hl | hl
  · left; dsimp only; rw [hl]; rfl
  · by_cases hb : busy s.xfers ep = true
    · left
      dsimp only
      unfold busy at hb
      rw [List.any_eq_true] at hb
      obtain ⟨x, hx, hxe⟩ := hb
      have : s.xfers.any (fun x => x.ep == ep && x.cb) = true := by
        rw [List.any_eq_true]
        exact ⟨x, hx, by rw [hxe, h.cb x hx]; rfl⟩
      rw [this]; simp
    · right
      intro e he
      obtain ⟨o, ho, hoe, hbo⟩ := hl e he
      refine ⟨o, ho, hoe, ?_⟩
      have hne : o.ep ≠ ep := fun hh => hb (hh ▸ hbo)
      unfold busy at hbo ⊢
      rw [List.any_eq_true] at hbo ⊢
      obtain ⟨x, hx, hxe⟩ := hbo
      refine ⟨x, List.mem_filter.2 ⟨hx, ?_⟩, hxe⟩
      have hxe : x.ep = o.ep := by simpa using hxe
      rw [hxe]
      simpa using hne

theorem inv_tick {env : Env} {luck : Luck} (hl : lucky luck) {s s' : St} (h : Inv env s)
    (hs : step env s luck .tick = .ok s') : Inv env s' ∧ (s.sched = true → Waiting s' ∧ s'.sched = false) ∧ s'.obs = s.obs ∧ s'.res = s.res := by
  unfold step at hs
  dsimp only at hs
  split at hs
  · rename_i hsc
    unfold process at hs
    rw [if_neg (by simp [hl.2.1])] at hs
    obtain ⟨t, h1, h2, h3, h4, _, _⟩ := proc_sync (env := env) hl s.queue.length (s := { s with sched := false }) (wf_sched h.wf false)
      h.cb h.sync (Nat.le_refl _)
    obtain ⟨t', g1, g2, g3, g4, g5⟩ := proc_wf (env := env) (luck := luck) s.queue.length (wf_sched h.wf false)
    have h1 : proc env luck s.queue.length { s with sched := false } = .ok t := h1
    rw [h1] at g1
    injection g1 with g1
    subst g1
    have hs : proc env luck s.queue.length { s with sched := false } = .ok s' := hs
    rw [h1] at hs
    injection hs with hs
    subst hs
    refine ⟨⟨g2, h3, h2, Or.inr h4, ?_⟩, fun _ => ⟨h4, g5⟩, g3, g4⟩
    rw [g4]
    exact h.named
  · rename_i hsc
    injection hs with hs
    subst hs
    exact ⟨h, fun hh => absurd hh hsc, rfl, rfl⟩

theorem inv_step {env : Env} {s s' : St} {l : Luck} {op : Op} (h : Inv env s) (ha : good s l op)
    (hs : step env s l op = .ok s') : Inv env s' := by
  obtain ⟨hsafe, hl, hop⟩ := ha
  cases op with
  | tick => exact (inv_tick hl h hs).1
  | register ep => unfold step at hs; injection hs with hs; subst hs; exact inv_register h ep
  | cancel i => unfold step at hs; injection hs with hs; subst hs; exact inv_cancel h i
  | create u => unfold step at hs; injection hs with hs; subst hs; exact inv_create h hsafe hop
  | add i =>
    unfold step at hs
    dsimp only at hs
    cases hf : s.res.find? (fun r => r.id == i) with
    | none => rw [hf] at hs; injection hs with hs; subst hs; exact h
    | some r => rw [hf] at hs; injection hs with hs; subst hs; exact inv_addRes hl h (find_res h.wf hf).1
  | change i =>
    unfold step at hs
    dsimp only at hs
    cases hf : s.res.find? (fun r => r.id == i) with
    | none => rw [hf] at hs; injection hs with hs; subst hs; exact h
    | some r =>
      rw [hf] at hs; injection hs with hs; subst hs
      obtain ⟨x, hx, hi, hxl⟩ := hsafe
      obtain ⟨hr, hri⟩ := find_res h.wf hf
      rw [res_unique h.wf.resNd hx hr (hi.trans hri.symm)] at hxl
      exact inv_changeRes hl h hr hxl
  | delete i =>
    unfold step at hs
    dsimp only at hs
    cases hf : s.res.find? (fun r => r.id == i) with
    | none => rw [hf] at hs; injection hs with hs; subst hs; exact h
    | some r => rw [hf] at hs; injection hs with hs; subst hs; exact inv_deleteRes hl h (find_res h.wf hf).1
  | xferStart ep => exact absurd hop id
  | xferEnd ep => unfold step at hs; injection hs with hs; subst hs; exact inv_xferEnd h ep

theorem reach_inv {env : Env} {s : St} (h : Reach env good s) : Inv env s := by
  induction h with
  | init => exact inv_init env
  | step _ ha hs ih => exact inv_step ih ha hs

end Verif.Batch
