import Verif.Batch.Spec

namespace Verif.Batch

/-! ### Structure -/

/-- An observer of the list by its number. -/
theorem obs_unique {l : List Obs} (h : (l.map (·.id)).Nodup) {a b : Obs} (ha : a ∈ l) (hb : b ∈ l)
    (hid : a.id = b.id) : a = b := by
  induction l with
  | nil => cases ha
  | cons x xs ih =>
    simp only [List.map_cons, List.nodup_cons, List.mem_map, not_exists, not_and] at h
    rcases List.mem_cons.1 ha with rfl | ha'
    · rcases List.mem_cons.1 hb with rfl | hb'
      · rfl
      · exact absurd hid.symm (h.1 b hb')
    · rcases List.mem_cons.1 hb with rfl | hb'
      · exact absurd hid (h.1 a ha')
      · exact ih h.2 ha' hb'

theorem res_unique {l : List Res} (h : (l.map (·.id)).Nodup) {a b : Res} (ha : a ∈ l) (hb : b ∈ l)
    (hid : a.id = b.id) : a = b := by
  induction l with
  | nil => cases ha
  | cons x xs ih =>
    simp only [List.map_cons, List.nodup_cons, List.mem_map, not_exists, not_and] at h
    rcases List.mem_cons.1 ha with rfl | ha'
    · rcases List.mem_cons.1 hb with rfl | hb'
      · rfl
      · exact absurd hid.symm (h.1 b hb')
    · rcases List.mem_cons.1 hb with rfl | hb'
      · exact absurd hid (h.1 a ha')
      · exact ih h.2 ha' hb'

/-- An entry that may be processed. -/
def entOk (s : St) (e : Ent) : Prop :=
  (∃ o ∈ s.obs, o.id = e.obs) ∧
    match e.tgt with
    | .res i => ∃ r ∈ s.res, r.id = i ∧ r.listed = true
    | .gone u => u.length ≤ 256

/-- The structural invariant. -/
structure WF (s : St) : Prop where
  obsNd : (s.obs.map (·.id)).Nodup
  obsLt : ∀ o ∈ s.obs, o.id < s.nextObs
  resNd : (s.res.map (·.id)).Nodup
  resLt : ∀ r ∈ s.res, r.id < s.nextRes
  short : ∀ r ∈ s.res, r.uri.length ≤ 256
  uniq : ∀ a ∈ s.res, ∀ b ∈ s.res, a.listed = true → b.listed = true → a.uri = b.uri → a.id = b.id
  ents : ∀ e ∈ s.queue, entOk s e
  nd : s.queue.Nodup
  logLt : ∀ i ∈ s.log, i.obs < s.nextObs

theorem wf_init : WF init := by
  constructor <;> simp [init]

/-! ### Adding entries -/

theorem dup_snoc (q : List Ent) (o x : Obs) (r : Res) (rm : Bool) (h : x.id ≠ o.id) :
    dup (q ++ [mk r rm x]) o r rm = dup q o r rm := by
  unfold dup
  rw [List.any_append]
  have : (x.id == o.id) = false := by simpa using h
  simp [mk, this]

theorem addLoop_spec (env : Env) (luck : Luck) (r : Res) (rm : Bool) :
    ∀ (os : List Obs) (q : List Ent), (os.map (·.id)).Nodup →
      ∃ add : List Obs, (addLoop env luck r rm os q).1 = q ++ add.map (mk r rm) ∧
        add.Sublist os ∧
        (∀ o ∈ add, env.acl r.uri o.ep = true ∧ dup q o r rm = false ∧ (rm = true → r.uri ≠ [])) ∧
        ((∀ i, luck.entry i = true) →
          (addLoop env luck r rm os q).2 = true ∧
          ∀ o ∈ os, env.acl r.uri o.ep = true → (rm = true → r.uri ≠ []) → dup q o r rm = true ∨ o ∈ add) := by
  intro os
  induction os with
  | nil =>
    intro q _
    exact ⟨[], by simp [addLoop], List.Sublist.refl _, by simp, fun _ => ⟨rfl, by simp⟩⟩
  | cons o os ih =>
    intro q hnd
    simp only [List.map_cons, List.nodup_cons, List.mem_map, not_exists, not_and] at hnd
    obtain ⟨hno, hnd⟩ := hnd
    unfold addLoop
    split
    · rename_i hc
      obtain ⟨add, h1, h2, h3, h4⟩ := ih q hnd
      refine ⟨add, h1, h2.trans (List.sublist_cons_self _ _), h3, fun hl => ⟨(h4 hl).1, ?_⟩⟩
      intro o' ho' hacl hrm
      simp only [Bool.and_eq_true, beq_iff_eq] at hc
      exact absurd hc.2 (hrm hc.1)
    · rename_i hne
      split
      · rename_i hc
        obtain ⟨add, h1, h2, h3, h4⟩ := ih q hnd
        refine ⟨add, h1, h2.trans (List.sublist_cons_self _ _), h3, fun hl => ⟨(h4 hl).1, ?_⟩⟩
        intro o' ho' hacl hrm
        rcases List.mem_cons.1 ho' with rfl | ho'
        · simp [hacl] at hc
        · exact (h4 hl).2 o' ho' hacl hrm
      · rename_i hacl0
        split
        · rename_i hd
          obtain ⟨add, h1, h2, h3, h4⟩ := ih q hnd
          refine ⟨add, h1, h2.trans (List.sublist_cons_self _ _), h3, fun hl => ⟨(h4 hl).1, ?_⟩⟩
          intro o' ho' hacl hrm
          rcases List.mem_cons.1 ho' with rfl | ho'
          · exact Or.inl hd
          · exact (h4 hl).2 o' ho' hacl hrm
        · rename_i hd
          split
          · rename_i he
            refine ⟨[], by simp, List.nil_sublist _, by simp, fun hl => ?_⟩
            simp [hl] at he
          · rename_i he
            obtain ⟨add, h1, h2, h3, h4⟩ := ih (q ++ [mk r rm o]) hnd
            refine ⟨o :: add, by rw [h1]; simp, h2.cons_cons o, ?_, fun hl => ⟨(h4 hl).1, ?_⟩⟩
            · intro o' ho'
              rcases List.mem_cons.1 ho' with rfl | ho'
              · refine ⟨by simpa using hacl0, by simpa using hd, fun hrm hu => hne ?_⟩
                simp [hrm, hu]
              · obtain ⟨a, b, c⟩ := h3 o' ho'
                rw [dup_snoc q o' o r rm (fun h => hno o' (h2.subset ho') h.symm)] at b
                exact ⟨a, b, c⟩
            · intro o' ho' hacl hrm
              rcases List.mem_cons.1 ho' with rfl | ho'
              · exact Or.inr (List.mem_cons_self)
              · rcases (h4 hl).2 o' ho' hacl hrm with h | h
                · rw [dup_snoc q o' o r rm (fun h => hno o' ho' h.symm)] at h
                  exact Or.inl h
                · exact Or.inr (List.mem_cons_of_mem _ h)

theorem mk_obs (r : Res) (rm : Bool) (o : Obs) : (mk r rm o).obs = o.id := rfl

theorem mk_not_mem {q : List Ent} {o : Obs} {r : Res} {rm : Bool} (h : dup q o r rm = false) :
    mk r rm o ∉ q := by
  intro hm
  have : dup q o r rm = true := by
    unfold dup
    rw [List.any_eq_true]
    refine ⟨_, hm, ?_⟩
    cases rm <;> simp [mk]
  rw [h] at this
  cases this

theorem nodup_map_mk {r : Res} {rm : Bool} {add : List Obs} (h : (add.map (·.id)).Nodup) :
    (add.map (mk r rm)).Nodup := by
  have : (add.map (mk r rm)).map (·.obs) = add.map (·.id) := by
    rw [List.map_map]; rfl
  rw [← this] at h
  exact List.Pairwise.of_map (·.obs) (fun a b hab hh => hab (by rw [hh])) h

/-- Adding entries keeps the structure, when the new entries may be processed. -/
theorem wf_addBatch {env : Env} {luck : Luck} {r : Res} {rm d : Bool} {s : St} (h : WF s)
    (hr : if rm then r.uri.length ≤ 256 else ∃ x ∈ s.res, x.id = r.id ∧ x.listed = true) :
    WF (addBatch env luck r rm d s) := by
  obtain ⟨add, h1, h2, h3, _⟩ := addLoop_spec env luck r rm s.obs s.queue h.obsNd
  unfold addBatch
  dsimp only
  refine ⟨h.obsNd, h.obsLt, h.resNd, h.resLt, h.short, h.uniq, ?_, ?_, h.logLt⟩
  · intro e he
    dsimp only at he
    rw [h1, List.mem_append] at he
    rcases he with he | he
    · exact h.ents e he
    · obtain ⟨o, ho, rfl⟩ := List.mem_map.1 he
      refine ⟨⟨o, h2.subset ho, rfl⟩, ?_⟩
      cases rm
      · simpa [mk] using hr
      · simpa [mk] using hr
  · dsimp only
    rw [h1, List.nodup_append]
    refine ⟨h.nd, nodup_map_mk ((h2.map _).nodup h.obsNd), ?_⟩
    intro a ha b hb hab
    obtain ⟨o, ho, rfl⟩ := List.mem_map.1 hb
    exact mk_not_mem (h3 o ho).2.1 (hab ▸ ha)

/-! ### The loop -/

/-- The items of an entry that may be processed. -/
def itm (env : Env) (res : List Res) (o : Obs) (t : Tgt) : List Item :=
  match item env res o t with
  | .ok l => l
  | .ub => []

theorem item_ok {env : Env} {s : St} {o : Obs} {e : Ent} (h : entOk s e) :
    item env s.res o e.tgt = .ok (itm env s.res o e.tgt) := by
  obtain ⟨_, h⟩ := h
  unfold itm
  cases ht : e.tgt with
  | res i =>
    rw [ht] at h
    obtain ⟨r, hr, hid, _⟩ := h
    unfold item
    dsimp only
    cases hf : s.res.find? (fun r => r.id == i) with
    | none => rw [List.find?_eq_none] at hf; exact absurd (by simpa using hid) (hf r hr)
    | some x => rfl
  | gone u =>
    rw [ht] at h
    unfold item
    dsimp only at h ⊢
    rw [if_pos (by omega)]

theorem items_ok {env : Env} {s : St} {o : Obs} : ∀ {es : List Ent}, (∀ e ∈ es, entOk s e) →
    items env s.res o es = .ok (es.flatMap fun e => itm env s.res o e.tgt) := by
  intro es
  induction es with
  | nil => intro _; rfl
  | cons e es ih =>
    intro h
    unfold items
    rw [item_ok (h e List.mem_cons_self), ih (fun x hx => h x (List.mem_cons_of_mem _ hx))]
    rfl

/-- An endpoint to which a transfer runs. -/
def busy (xfers : List Xf) (ep : Nat) : Bool := xfers.any fun x => x.ep == ep

theorem find_obs {obs : List Obs} {i : Nat} (h : ∃ o ∈ obs, o.id = i) :
    ∃ o ∈ obs, o.id = i ∧ obs.find? (fun o => o.id == i) = some o := by
  cases hf : obs.find? (fun o => o.id == i) with
  | none =>
    rw [List.find?_eq_none] at hf
    obtain ⟨o, ho, hi⟩ := h
    exact absurd (by simpa using hi) (hf o ho)
  | some o =>
    exact ⟨o, List.mem_of_find?_eq_some hf, by simpa using List.find?_some hf, rfl⟩

/-- The entry picked: the first of an observer to which no transfer runs. -/
theorem pick_spec (obs : List Obs) (xfers : List Xf) : ∀ (q : List Ent),
    (∀ e ∈ q, ∃ o ∈ obs, o.id = e.obs) →
    (pick obs xfers q = .ok none ∧ ∀ e ∈ q, ∃ o ∈ obs, o.id = e.obs ∧ busy xfers o.ep = true) ∨
    ∃ pre e o post, pick obs xfers q = .ok (some (pre, e, o, post)) ∧ q = pre ++ e :: post ∧
      o ∈ obs ∧ o.id = e.obs ∧ busy xfers o.ep = false ∧
      ∀ x ∈ pre, ∃ o' ∈ obs, o'.id = x.obs ∧ busy xfers o'.ep = true := by
  intro q
  induction q with
  | nil => intro _; exact Or.inl ⟨rfl, by simp⟩
  | cons e es ih =>
    intro h
    obtain ⟨o, ho, hid, hf⟩ := find_obs (h e List.mem_cons_self)
    unfold pick
    rw [hf]
    dsimp only
    split
    · rename_i hb
      rcases ih (fun x hx => h x (List.mem_cons_of_mem _ hx)) with ⟨h1, h2⟩ | ⟨pre, e', o', post, h1, h2, h3, h4, h5, h6⟩
      · refine Or.inl ⟨by rw [h1]; rfl, ?_⟩
        intro x hx
        rcases List.mem_cons.1 hx with rfl | hx
        · exact ⟨o, ho, hid, hb⟩
        · exact h2 x hx
      · refine Or.inr ⟨e :: pre, e', o', post, by rw [h1]; rfl, by rw [h2]; rfl, h3, h4, h5, ?_⟩
        intro x hx
        rcases List.mem_cons.1 hx with rfl | hx
        · exact ⟨o, ho, hid, hb⟩
        · exact h6 x hx
    · rename_i hb
      exact Or.inr ⟨[], e, o, es, rfl, rfl, ho, hid, by simpa [busy] using hb, by simp⟩

theorem send_shape (luck : Luck) (o : Obs) (its : List Item) (s : St) :
    (send luck o its s).1.obs = s.obs ∧ (send luck o its s).1.res = s.res ∧
    (send luck o its s).1.nextObs = s.nextObs ∧ (send luck o its s).1.nextRes = s.nextRes ∧
    (send luck o its s).1.sched = s.sched ∧
    ((send luck o its s).1.log = s.log ∨ (send luck o its s).1.log = s.log ++ its) := by
  unfold send
  repeat' split
  all_goals simp

theorem itm_obs {env : Env} {res : List Res} {o : Obs} {t : Tgt} : ∀ i ∈ itm env res o t, i.obs = o.id := by
  intro i hi
  unfold itm item at hi
  cases t with
  | res j =>
    dsimp only at hi
    cases hf : res.find? (fun r => r.id == j) with
    | none => rw [hf] at hi; cases hi
    | some r =>
      rw [hf] at hi
      dsimp only at hi
      split at hi
      · simp only [List.mem_singleton] at hi; rw [hi]
      · cases hi
  | gone u =>
    dsimp only at hi
    split at hi
    · rename_i hh
      split at hh
      · injection hh with hh
        rw [← hh] at hi
        simp only [List.mem_singleton] at hi; rw [hi]
      · cases hh
    · cases hi

/-- After one turn the structure holds. -/
theorem wf_turn {env : Env} {luck : Luck} {s : St} (h : WF s) {o : Obs} (ho : o ∈ s.obs) {es : List Ent}
    {q : List Ent} (hq : q.Sublist s.queue) :
    WF { (send luck o (es.flatMap fun e => itm env s.res o e.tgt) s).1 with queue := q } := by
  obtain ⟨h1, h2, h3, h4, _, h6⟩ := send_shape luck o (es.flatMap fun e => itm env s.res o e.tgt) s
  constructor
  · dsimp only; rw [h1]; exact h.obsNd
  · dsimp only; rw [h1, h3]; exact h.obsLt
  · dsimp only; rw [h2]; exact h.resNd
  · dsimp only; rw [h2, h4]; exact h.resLt
  · dsimp only; rw [h2]; exact h.short
  · dsimp only; rw [h2]; exact h.uniq
  · intro e he
    have := h.ents e (hq.subset he)
    unfold entOk at this ⊢
    dsimp only
    rw [h1, h2]
    exact this
  · exact hq.nodup h.nd
  · dsimp only
    rw [h3]
    rcases h6 with h6 | h6
    · rw [h6]; exact h.logLt
    · rw [h6]
      intro i hi
      rcases List.mem_append.1 hi with hi | hi
      · exact h.logLt i hi
      · obtain ⟨e, _, hi⟩ := List.mem_flatMap.1 hi
        rw [itm_obs i hi]
        exact h.obsLt o ho

/-- One turn of the loop in full. -/
theorem proc_turn {env : Env} {luck : Luck} {s : St} (h : WF s) (n : Nat) :
    (proc env luck (n + 1) s = .ok s ∧
        ∀ e ∈ s.queue, ∃ o ∈ s.obs, o.id = e.obs ∧ busy s.xfers o.ep = true) ∨
    ∃ pre e o post, s.queue = pre ++ e :: post ∧ o ∈ s.obs ∧ o.id = e.obs ∧ busy s.xfers o.ep = false ∧
      (∀ x ∈ pre, x.obs ≠ o.id) ∧
      (let r := send luck o ((s.queue.filter fun x => x.obs == o.id).flatMap fun e => itm env s.res o e.tgt) s
       proc env luck (n + 1) s =
        if r.2 then proc env luck n { r.1 with queue := dropObs o.id s.queue }
        else .ok { r.1 with queue := pre ++ e :: dropObs o.id post }) := by
  rcases pick_spec s.obs s.xfers s.queue (fun e he => (h.ents e he).1) with ⟨h1, h2⟩ | ⟨pre, e, o, post, h1, h2, h3, h4, h5, h6⟩
  · left
    refine ⟨?_, h2⟩
    unfold proc
    rw [h1]
    rfl
  · right
    have hpre : ∀ x ∈ pre, x.obs ≠ o.id := by
      intro x hx hxo
      obtain ⟨o', ho', hid', hb⟩ := h6 x hx
      have := obs_unique h.obsNd ho' h3 (hid'.trans hxo)
      rw [this, h5] at hb
      cases hb
    refine ⟨pre, e, o, post, h2, h3, h4, h5, hpre, ?_⟩
    have hE : (s.queue.filter fun x => x.obs == o.id) = e :: post.filter fun x => x.obs == e.obs := by
      rw [h2, List.filter_append, List.filter_cons]
      have : pre.filter (fun x => x.obs == o.id) = [] := by
        rw [List.filter_eq_nil_iff]
        intro x hx hh
        exact hpre x hx (by simpa using hh)
      rw [this]
      simp [h4]
    have hD : dropObs o.id s.queue = pre ++ dropObs e.obs post := by
      rw [h2]
      unfold dropObs
      rw [List.filter_append, List.filter_cons]
      have : pre.filter (fun x => !(x.obs == o.id)) = pre := by
        rw [List.filter_eq_self]
        intro x hx
        simpa using hpre x hx
      rw [this]
      simp [h4]
    have hsub : ∀ x ∈ (e :: post.filter fun x => x.obs == e.obs), entOk s x := by
      intro x hx
      rw [← hE] at hx
      exact h.ents x (List.mem_filter.1 hx).1
    dsimp only
    rw [hD, hE]
    conv => lhs; unfold proc
    rw [h1]
    show ((items env s.res o _).bind _) = _
    rw [items_ok hsub, h4]
    rfl

/-- The loop does nothing undefined, and leaves the structure; observers and
resources are as before. -/
theorem proc_wf {env : Env} {luck : Luck} : ∀ (n : Nat) {s : St}, WF s →
    ∃ s', proc env luck n s = .ok s' ∧ WF s' ∧ s'.obs = s.obs ∧ s'.res = s.res ∧ s'.sched = s.sched := by
  intro n
  induction n with
  | zero => intro s h; exact ⟨s, rfl, h, rfl, rfl, rfl⟩
  | succ n ih =>
    intro s h
    rcases proc_turn (env := env) (luck := luck) h n with ⟨h1, _⟩ | ⟨pre, e, o, post, hq, ho, _, _, _, h1⟩
    · exact ⟨s, h1, h, rfl, rfl, rfl⟩
    · dsimp only at h1
      obtain ⟨a1, a2, _, _, a5, _⟩ := send_shape luck o
        ((s.queue.filter fun x => x.obs == o.id).flatMap fun e => itm env s.res o e.tgt) s
      split at h1
      · obtain ⟨s', b1, b2, b3, b4, b5⟩ := ih (wf_turn (env := env) (luck := luck) (es := s.queue.filter fun x => x.obs == o.id) h ho
          (show (dropObs o.id s.queue).Sublist s.queue from List.filter_sublist))
        exact ⟨s', h1.trans b1, b2, b3.trans a1, b4.trans a2, b5.trans a5⟩
      · refine ⟨_, h1, wf_turn h ho ?_, a1, a2, a5⟩
        rw [hq]
        exact List.Sublist.append_left ((List.filter_sublist).cons_cons e) pre

end Verif.Batch
