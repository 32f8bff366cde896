import Verif.Batch.Inv

namespace Verif.Batch

/-! ### What is pending -/

/-- A target that concerns a uri. -/
def about (res : List Res) (u : Bytes) : Tgt → Bool
  | .res i => res.any fun r => r.id == i && r.uri == u
  | .gone v => v == u

/-- The last pending entry of an observer about a uri. -/
def pendLast (s : St) (o : Nat) (u : Bytes) : Option Ent :=
  (s.queue.filter fun e => e.obs == o && about s.res u e.tgt).getLast?

/-- What the report of a pending entry will say is true. -/
def okT (t : Tgt) (c : Option (Nat × Nat)) : Prop :=
  match t with
  | .res i => ∃ v, c = some (i, v)
  | .gone _ => c = none

/-- Every observer was told how things are, or will be. -/
def Sync (env : Env) (s : St) : Prop :=
  ∀ o ∈ s.obs, ∀ u, env.acl u o.ep = true → env.shown u o.ep = true →
    (∀ e, pendLast s o.id u = some e → okT e.tgt (cur s u)) ∧
    (pendLast s o.id u = none → view s.log o.id u = cur s u)

theorem cur_some {s : St} (h : WF s) {r : Res} (hr : r ∈ s.res) (hl : r.listed = true) :
    cur s r.uri = some (r.id, r.ver) := by
  unfold cur
  cases hf : s.res.find? (fun x => x.listed && x.uri == r.uri) with
  | none => rw [List.find?_eq_none] at hf; exact absurd (by simp [hl]) (hf r hr)
  | some x =>
    have hx := List.mem_of_find?_eq_some hf
    have hp := List.find?_some hf
    simp only [Bool.and_eq_true, beq_iff_eq] at hp
    have := h.uniq x hx r hr hp.1 hl hp.2
    rw [res_unique h.resNd hx hr this]
    rfl

theorem cur_none {s : St} {u : Bytes} (hn : ∀ r ∈ s.res, r.listed = true → r.uri ≠ u) : cur s u = none := by
  unfold cur
  have : s.res.find? (fun x => x.listed && x.uri == u) = none := by
    rw [List.find?_eq_none]
    intro x hx hp
    simp only [Bool.and_eq_true, beq_iff_eq] at hp
    exact hn x hx hp.1 hp.2
  rw [this]; rfl

theorem cur_inv {s : St} {u : Bytes} {i v : Nat} (h : cur s u = some (i, v)) :
    ∃ r ∈ s.res, r.listed = true ∧ r.uri = u ∧ r.id = i ∧ r.ver = v := by
  unfold cur at h
  cases hf : s.res.find? (fun x => x.listed && x.uri == u) with
  | none => rw [hf] at h; cases h
  | some x =>
    rw [hf] at h
    have hx := List.mem_of_find?_eq_some hf
    have hp := List.find?_some hf
    simp only [Bool.and_eq_true, beq_iff_eq] at hp
    simp only [Option.map_some, Option.some.injEq, Prod.mk.injEq] at h
    exact ⟨x, hx, hp.1, hp.2, h.1, h.2⟩

theorem cur_none_inv {s : St} {u : Bytes} (h : cur s u = none) : ∀ r ∈ s.res, r.listed = true → r.uri ≠ u := by
  intro r hr hl hu
  unfold cur at h
  cases hf : s.res.find? (fun x => x.listed && x.uri == u) with
  | none => rw [List.find?_eq_none] at hf; exact absurd (by simp [hl, hu]) (hf r hr)
  | some x => rw [hf] at h; cases h

theorem about_map {res : List Res} {f : Res → Res} (hid : ∀ r, (f r).id = r.id) (huri : ∀ r, (f r).uri = r.uri)
    (u : Bytes) (t : Tgt) : about (res.map f) u t = about res u t := by
  cases t with
  | gone v => rfl
  | res i =>
    unfold about
    dsimp only
    rw [List.any_map]
    congr 1
    funext r
    simp [Function.comp, hid, huri]

theorem about_append {res : List Res} {r : Res} {t : Tgt} (h : t ≠ .res r.id) (u : Bytes) :
    about (res ++ [r]) u t = about res u t := by
  cases t with
  | gone v => rfl
  | res i =>
    have : r.id ≠ i := fun hh => h (by rw [hh])
    simp [about, this]

theorem about_filter {res : List Res} {i : Nat} {t : Tgt} (h : t ≠ .res i) (u : Bytes) :
    about (res.filter fun x => !(x.id == i)) u t = about res u t := by
  cases t with
  | gone v => rfl
  | res j =>
    have hji : j ≠ i := fun hh => h (by rw [hh])
    unfold about
    dsimp only
    rw [Bool.eq_iff_iff, List.any_eq_true, List.any_eq_true]
    constructor
    · rintro ⟨x, hx, hp⟩
      exact ⟨x, (List.mem_filter.1 hx).1, hp⟩
    · rintro ⟨x, hx, hp⟩
      refine ⟨x, List.mem_filter.2 ⟨hx, ?_⟩, hp⟩
      simp only [Bool.and_eq_true, beq_iff_eq] at hp
      rw [hp.1]
      simpa using hji

theorem about_res {s : St} (h : WF s) {r : Res} (hr : r ∈ s.res) (u : Bytes) :
    about s.res u (.res r.id) = (r.uri == u) := by
  unfold about
  dsimp only
  rw [Bool.eq_iff_iff, List.any_eq_true]
  constructor
  · rintro ⟨x, hx, hp⟩
    simp only [Bool.and_eq_true, beq_iff_eq] at hp
    rw [← res_unique h.resNd hx hr hp.1]
    simpa using hp.2
  · intro hp
    exact ⟨r, hr, by simpa using hp⟩

theorem pendLast_congr {s t : St} {o : Nat} {u : Bytes} (hq : t.queue = s.queue)
    (ha : ∀ e ∈ s.queue, about t.res u e.tgt = about s.res u e.tgt) : pendLast t o u = pendLast s o u := by
  unfold pendLast
  rw [hq]
  congr 1
  apply List.filter_congr
  intro e he
  rw [ha e he]

/-- A subset of the entries that keeps those concerned. -/
theorem pendLast_sub {s t : St} {o : Nat} {u : Bytes} {k : Ent → Bool} (hq : t.queue = s.queue.filter k)
    (hr : t.res = s.res) (hk : ∀ e ∈ s.queue, e.obs = o → about s.res u e.tgt = true → k e = true) :
    pendLast t o u = pendLast s o u := by
  unfold pendLast
  rw [hq, hr, List.filter_filter]
  congr 1
  apply List.filter_congr
  intro e he
  by_cases h1 : e.obs = o
  · by_cases h2 : about s.res u e.tgt = true
    · simp [h1, h2, hk e he h1 h2]
    · simp [h2]
  · simp [h1]

theorem last_app {α : Type} (l m : List α) : (l ++ m).getLast? = m.getLast?.or l.getLast? := List.getLast?_append

/-- The last pending entry after entries were added. -/
theorem pend_add {env : Env} {luck : Luck} {r : Res} {rm d : Bool} {s : St} (h : WF s) {o : Obs} (ho : o ∈ s.obs)
    (u : Bytes) :
    (about s.res u (mk r rm o).tgt = false →
      pendLast (addBatch env luck r rm d s) o.id u = pendLast s o.id u) ∧
    ((∀ i, luck.entry i = true) → env.acl r.uri o.ep = true → (rm = true → r.uri ≠ []) →
      about s.res u (mk r rm o).tgt = true →
      pendLast (addBatch env luck r rm d s) o.id u = some (mk r rm o) ∨
      (dup s.queue o r rm = true ∧ pendLast (addBatch env luck r rm d s) o.id u = pendLast s o.id u)) := by
  obtain ⟨add, h1, h2, h3, h4⟩ := addLoop_spec env luck r rm s.obs s.queue h.obsNd
  have hall : ∀ x ∈ (add.map (mk r rm)).filter (fun e => e.obs == o.id && about s.res u e.tgt), x = mk r rm o ∧ o ∈ add := by
    intro x hx
    obtain ⟨hx, hp⟩ := List.mem_filter.1 hx
    obtain ⟨o', ho', rfl⟩ := List.mem_map.1 hx
    simp only [Bool.and_eq_true, beq_iff_eq, mk_obs] at hp
    have := obs_unique h.obsNd (h2.subset ho') ho hp.1
    rw [this] at ho' ⊢
    exact ⟨rfl, ho'⟩
  have hpl : pendLast (addBatch env luck r rm d s) o.id u =
      ((add.map (mk r rm)).filter (fun e => e.obs == o.id && about s.res u e.tgt)).getLast?.or (pendLast s o.id u) := by
    unfold pendLast addBatch
    dsimp only
    rw [h1, List.filter_append, last_app]
  constructor
  · intro ha
    have : (add.map (mk r rm)).filter (fun e => e.obs == o.id && about s.res u e.tgt) = [] := by
      rw [List.eq_nil_iff_forall_not_mem]
      intro x hx
      have he := (hall x hx).1
      obtain ⟨_, hp⟩ := List.mem_filter.1 hx
      rw [he, ha] at hp
      simp at hp
    rw [hpl, this]
    simp
  · intro hl hacl hrm ha
    by_cases hoa : o ∈ add
    · left
      rw [hpl]
      have hm : mk r rm o ∈ (add.map (mk r rm)).filter (fun e => e.obs == o.id && about s.res u e.tgt) :=
        List.mem_filter.2 ⟨List.mem_map_of_mem hoa, by simp [mk_obs, ha]⟩
      cases hg : ((add.map (mk r rm)).filter (fun e => e.obs == o.id && about s.res u e.tgt)).getLast? with
      | none => rw [List.getLast?_eq_none_iff] at hg; rw [hg] at hm; cases hm
      | some x => rw [(hall x (List.mem_of_getLast? hg)).1]; rfl
    · right
      rcases (h4 hl).2 o ho hacl hrm with hd | hd
      · refine ⟨hd, ?_⟩
        have : (add.map (mk r rm)).filter (fun e => e.obs == o.id && about s.res u e.tgt) = [] := by
          rw [List.eq_nil_iff_forall_not_mem]
          intro x hx
          exact hoa (hall x hx).2
        rw [hpl, this]
        simp
      · exact absurd hd hoa

/-! ### What the observer is told -/

/-- What the item of an entry says. -/
def whatOf (res : List Res) : Tgt → Option (Nat × Nat)
  | .res i => (res.find? fun r => r.id == i).map fun r => (r.id, r.ver)
  | .gone _ => none

theorem itm_filter {env : Env} {s : St} (h : WF s) {o : Obs} {u : Bytes} (hacl : env.acl u o.ep = true)
    (hsh : env.shown u o.ep = true) {e : Ent} (he : entOk s e) :
    (itm env s.res o e.tgt).filter (fun i => i.obs == o.id && i.uri == u) =
      if about s.res u e.tgt then [⟨o.id, u, whatOf s.res e.tgt⟩] else [] := by
  obtain ⟨_, h2⟩ := he
  unfold itm item
  cases ht : e.tgt with
  | res i =>
    rw [ht] at h2
    obtain ⟨r, hr, hid, _⟩ := h2
    dsimp only
    have hf : s.res.find? (fun r => r.id == i) = some r := by
      cases hf : s.res.find? (fun r => r.id == i) with
      | none => rw [List.find?_eq_none] at hf; exact absurd (by simpa using hid) (hf r hr)
      | some x =>
        have hx : x.id = i := by simpa using List.find?_some hf
        rw [res_unique h.resNd (List.mem_of_find?_eq_some hf) hr (hx.trans hid.symm)]
    rw [hf]
    dsimp only
    rw [← hid, about_res h hr]
    by_cases hu : r.uri = u
    · subst hu
      have hf' : s.res.find? (fun x => x.id == r.id) = some r := by rw [hid]; exact hf
      simp [hacl, hsh, whatOf, hf']
    · have hb : (r.uri == u) = false := by simpa using hu
      rw [hb, if_neg (c := (false = true)) Bool.false_ne_true]
      split
      · simp [hu]
      · rfl
  | gone v =>
    rw [ht] at h2
    dsimp only at h2 ⊢
    rw [if_pos (by omega)]
    dsimp only [about, whatOf]
    by_cases hv : v = u
    · simp [hv]
    · simp [hv]

theorem filter_flatMap_itm {env : Env} {s : St} (h : WF s) {o : Obs} {u : Bytes} (hacl : env.acl u o.ep = true)
    (hsh : env.shown u o.ep = true) : ∀ {es : List Ent}, (∀ e ∈ es, entOk s e) →
    (es.flatMap fun e => itm env s.res o e.tgt).filter (fun i => i.obs == o.id && i.uri == u) =
      (es.filter fun e => about s.res u e.tgt).map fun e => ⟨o.id, u, whatOf s.res e.tgt⟩ := by
  intro es
  induction es with
  | nil => intro _; rfl
  | cons e es ih =>
    intro hok
    rw [List.flatMap_cons, List.filter_append, itm_filter h hacl hsh (hok e List.mem_cons_self),
      ih (fun x hx => hok x (List.mem_cons_of_mem _ hx)), List.filter_cons]
    split
    · rfl
    · rfl

/-- Reporting everything pending to an observer brings it up to date. -/
theorem view_report {env : Env} {s : St} (h : WF s) (hs : Sync env s) {o : Obs} (ho : o ∈ s.obs) {u : Bytes}
    (hacl : env.acl u o.ep = true) (hsh : env.shown u o.ep = true) :
    view (s.log ++ (s.queue.filter fun x => x.obs == o.id).flatMap fun e => itm env s.res o e.tgt) o.id u = cur s u := by
  have hok : ∀ e ∈ s.queue.filter (fun x => x.obs == o.id), entOk s e :=
    fun e he => h.ents e (List.mem_filter.1 he).1
  have hF : ((s.queue.filter fun x => x.obs == o.id).filter fun e => about s.res u e.tgt).getLast? = pendLast s o.id u := by
    rw [List.filter_filter]
    unfold pendLast
    congr 1
    apply List.filter_congr
    intro e _
    exact Bool.and_comm _ _
  unfold view
  rw [List.filter_append, last_app, filter_flatMap_itm h hacl hsh hok, List.getLast?_map, hF]
  obtain ⟨h1, h2⟩ := hs o ho u hacl hsh
  cases hp : pendLast s o.id u with
  | none =>
    have := h2 hp
    unfold view at this
    simpa using this
  | some e =>
    have hk := h1 e hp
    have he : e ∈ s.queue := by
      unfold pendLast at hp
      exact (List.mem_filter.1 (List.mem_of_getLast? hp)).1
    obtain ⟨_, h3⟩ := h.ents e he
    simp only [Option.map_some, Option.some_or, Option.getD_some]
    cases ht : e.tgt with
    | gone v => rw [ht] at hk; exact hk.symm
    | res i =>
      rw [ht] at hk
      obtain ⟨v, hv⟩ := hk
      obtain ⟨r, hr, hl, hu, hid, hver⟩ := cur_inv hv
      have hf : s.res.find? (fun r => r.id == i) = some r := by
        cases hf : s.res.find? (fun r => r.id == i) with
        | none => rw [List.find?_eq_none] at hf; exact absurd (by simpa using hid) (hf r hr)
        | some x =>
          have hx : x.id = i := by simpa using List.find?_some hf
          rw [res_unique h.resNd (List.mem_of_find?_eq_some hf) hr (hx.trans hid.symm)]
      simp only [whatOf, hf, Option.map_some]
      rw [hv, hid, hver]

theorem view_other {log its : List Item} {o : Nat} {u : Bytes} (h : ∀ i ∈ its, i.obs ≠ o) :
    view (log ++ its) o u = view log o u := by
  unfold view
  rw [List.filter_append]
  have : its.filter (fun i => i.obs == o && i.uri == u) = [] := by
    rw [List.filter_eq_nil_iff]
    intro i hi hp
    simp only [Bool.and_eq_true, beq_iff_eq] at hp
    exact h i hi hp.1
  rw [this, List.append_nil]

/-! ### The loop -/

/-- All transfers call back. -/
def AllCb (s : St) : Prop := ∀ x ∈ s.xfers, x.cb = true

/-- All entries wait for a transfer. -/
def Waiting (s : St) : Prop := ∀ e ∈ s.queue, ∃ o ∈ s.obs, o.id = e.obs ∧ busy s.xfers o.ep = true

theorem send_lucky {luck : Luck} (hl : lucky luck) (o : Obs) (its : List Item) (s : St) :
    (send luck o its s).2 = true ∧ (send luck o its s).1.log = s.log ++ its ∧
    (send luck o its s).1.queue = s.queue ∧
    ((send luck o its s).1.xfers = s.xfers ∨ (send luck o its s).1.xfers = s.xfers ++ [⟨o.ep, true⟩]) := by
  obtain ⟨_, _, hf, hr, ht⟩ := hl
  unfold send
  split
  · rename_i h
    have h : its = [] := by simpa using h
    rw [h]
    simp
  · rw [if_neg (by simp [hf])]
    split
    · rw [if_neg (by simp [hr]), if_neg (by simp [ht])]
      simp
    · rw [if_neg (by simp [ht])]
      simp

theorem sync_turn {env : Env} {luck : Luck} (hl : lucky luck) {s : St} (h : WF s) (hs : Sync env s) {o : Obs}
    (ho : o ∈ s.obs) :
    Sync env { (send luck o ((s.queue.filter fun x => x.obs == o.id).flatMap fun e => itm env s.res o e.tgt) s).1 with
      queue := dropObs o.id s.queue } := by
  obtain ⟨a1, a2, _, _, _, _⟩ := send_shape luck o
    ((s.queue.filter fun x => x.obs == o.id).flatMap fun e => itm env s.res o e.tgt) s
  obtain ⟨_, b2, _, _⟩ := send_lucky hl o
    ((s.queue.filter fun x => x.obs == o.id).flatMap fun e => itm env s.res o e.tgt) s
  have hcur : ∀ u, cur { (send luck o ((s.queue.filter fun x => x.obs == o.id).flatMap fun e => itm env s.res o e.tgt) s).1 with
      queue := dropObs o.id s.queue } u = cur s u := by
    intro u; unfold cur; dsimp only; rw [a2]
  intro o' ho' u hacl hsh
  dsimp only at ho'
  rw [a1] at ho'
  rw [hcur]
  by_cases he : o'.id = o.id
  · have := obs_unique h.obsNd ho' ho he
    subst this
    have hnone : pendLast { (send luck o' ((s.queue.filter fun x => x.obs == o'.id).flatMap fun e => itm env s.res o' e.tgt) s).1 with
        queue := dropObs o'.id s.queue } o'.id u = none := by
      unfold pendLast
      rw [List.getLast?_eq_none_iff, List.filter_eq_nil_iff]
      intro x hx hp
      simp only [Bool.and_eq_true, beq_iff_eq] at hp
      have := (List.mem_filter.1 hx).2
      simp [hp.1] at this
    refine ⟨fun e he => ?_, fun _ => ?_⟩
    · rw [hnone] at he; cases he
    · dsimp only
      rw [b2]
      exact view_report h hs ho hacl hsh
  · obtain ⟨h1, h2⟩ := hs o' ho' u hacl hsh
    have hpl : pendLast { (send luck o ((s.queue.filter fun x => x.obs == o.id).flatMap fun e => itm env s.res o e.tgt) s).1 with
        queue := dropObs o.id s.queue } o'.id u = pendLast s o'.id u := by
      refine pendLast_sub (k := fun e => !(e.obs == o.id)) rfl a2 ?_
      intro x hx hxo _
      rw [hxo]
      simpa using he
    rw [hpl]
    refine ⟨h1, fun hp => ?_⟩
    dsimp only
    rw [b2, view_other]
    · exact h2 hp
    · intro i hi
      obtain ⟨e, _, hi⟩ := List.mem_flatMap.1 hi
      rw [itm_obs i hi]
      exact fun hh => he hh.symm

theorem proc_sync {env : Env} {luck : Luck} (hl : lucky luck) : ∀ (n : Nat) {s : St}, WF s → AllCb s → Sync env s →
    s.queue.length ≤ n →
    ∃ s', proc env luck n s = .ok s' ∧ AllCb s' ∧ Sync env s' ∧ Waiting s' ∧
      (∀ x ∈ s.xfers, x ∈ s'.xfers) ∧ (s.queue = [] → s' = s) := by
  intro n
  induction n with
  | zero =>
    intro s h hc hs hn
    have hq : s.queue = [] := List.length_eq_zero_iff.1 (Nat.le_zero.1 hn)
    refine ⟨s, rfl, hc, hs, ?_, fun x hx => hx, fun _ => rfl⟩
    intro e he
    rw [hq] at he; cases he
  | succ n ih =>
    intro s h hc hs hn
    rcases proc_turn (env := env) (luck := luck) h n with ⟨h1, h2⟩ | ⟨pre, e, o, post, hq, ho, hoe, _, _, h1⟩
    · exact ⟨s, h1, hc, hs, h2, fun x hx => hx, fun _ => rfl⟩
    · dsimp only at h1
      obtain ⟨b1, b2, b3, b4⟩ := send_lucky hl o
        ((s.queue.filter fun x => x.obs == o.id).flatMap fun e => itm env s.res o e.tgt) s
      rw [b1] at h1
      rw [if_pos rfl] at h1
      have hlen : (dropObs o.id s.queue).length ≤ n := by
        have : (dropObs o.id s.queue).length < s.queue.length := by
          unfold dropObs
          rw [List.length_filter_lt_length_iff_exists]
          exact ⟨e, by rw [hq]; simp, by simp [hoe]⟩
        omega
      obtain ⟨s', c1, c2, c3, c4, c5, _⟩ := ih
        (wf_turn (env := env) (luck := luck) (es := s.queue.filter fun x => x.obs == o.id) h ho
          (show (dropObs o.id s.queue).Sublist s.queue from List.filter_sublist))
        (by
          intro x hx
          dsimp only at hx
          rcases b4 with b4 | b4
          · rw [b4] at hx; exact hc x hx
          · rw [b4] at hx
            rcases List.mem_append.1 hx with hx | hx
            · exact hc x hx
            · simp only [List.mem_singleton] at hx; rw [hx])
        (sync_turn hl h hs ho) hlen
      refine ⟨s', h1.trans c1, c2, c3, c4, ?_, ?_⟩
      · intro x hx
        apply c5
        dsimp only
        rcases b4 with b4 | b4
        · rw [b4]; exact hx
        · rw [b4]; exact List.mem_append_left _ hx
      · intro hh
        rw [hh] at hq
        cases pre <;> cases hq

end Verif.Batch
