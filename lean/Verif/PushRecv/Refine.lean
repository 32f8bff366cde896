import Verif.PushRecv.Lemmas

/-!
Each request does to the device what it does to the table.
-/

namespace Verif.PushRecv

open Verif.Rep (b Bytes Val Rep)
open Verif.Ri (slash ifaceMask)
open Verif.Push (arrCopy)
open Spec

/-! ## Changing a row -/

theorem id_iff_uri {U : Bytes → Prop} {app : List Rs} {items : List Item} (h : Rows U app items) {i j : Item}
    (hi : i ∈ items) (hj : j ∈ items) : j.id = i.id ↔ j.uri = i.uri :=
  ⟨fun he => by rw [inj_of_nodup h.ids hj hi he], fun he => by rw [inj_of_nodup h.uris hj hi he]⟩

theorem eq_of_uri {U : Bytes → Prop} {app : List Rs} {items : List Item} (h : Rows U app items) {i j : Item}
    (hi : i ∈ items) (hj : j ∈ items) (he : j.uri = i.uri) : j = i := inj_of_nodup h.uris hj hi he

theorem map_recvs {U : Bytes → Prop} {app : List Rs} {items : List Item} (h : Rows U app items) {i : Item}
    (hi : i ∈ items) (f : Item → Item) (x : Recv) (hx : recvOf (f i) = x) :
    (items.map recvOf).map (fun r => if r.id = i.id then x else r) =
      (items.map fun j => if j.uri = i.uri then f j else j).map recvOf := by
  rw [List.map_map, List.map_map]
  apply List.map_congr_left
  intro j hj
  have := id_iff_uri h hi hj
  by_cases hc : j.uri = i.uri
  · have he := eq_of_uri h hi hj hc
    subst he
    simp [recvOf] at hx ⊢
    exact hx.symm
  · have hn : ¬ (recvOf j).id = i.id := fun he => hc (this.mp he)
    simp only [Function.comp, if_neg hn, if_neg hc]

theorem map_reps {U : Bytes → Prop} {app : List Rs} {items : List Item} (h : Rows U app items) {i : Item}
    (hi : i ∈ items) (f : Item → Item) (g : PRep → PRep) (hg : g (repOf i) = repOf (f i)) :
    (items.map repOf).map (fun q => if q.rsc = i.id then g q else q) =
      (items.map fun j => if j.uri = i.uri then f j else j).map repOf := by
  rw [List.map_map, List.map_map]
  apply List.map_congr_left
  intro j hj
  have := id_iff_uri h hi hj
  by_cases hc : j.uri = i.uri
  · have he := eq_of_uri h hi hj hc
    subst he
    have hp : (repOf j).rsc = j.id := rfl
    simp only [Function.comp, if_pos hp, if_true]
    exact hg
  · have hn : ¬ (repOf j).rsc = i.id := fun he => hc (this.mp he)
    simp only [Function.comp, if_neg hn, if_neg hc]

theorem map_rscs {U : Bytes → Prop} {app : List Rs} {items : List Item} (h : Rows U app items) {i : Item}
    (hi : i ∈ items) (f : Item → Item) (g : Rs → Rs) (hg : g (rsOf i) = rsOf (f i)) :
    (app ++ items.map rsOf).map (fun q => if q.id = i.id then g q else q) =
      app ++ (items.map fun j => if j.uri = i.uri then f j else j).map rsOf := by
  rw [List.map_append]
  congr 1
  · have : app.map (fun q => if q.id = i.id then g q else q) = app.map id := by
      apply List.map_congr_left
      intro a ha
      rw [if_neg (h.own a ha i hi)]
      rfl
    rw [this, List.map_id]
  · rw [List.map_map, List.map_map]
    apply List.map_congr_left
    intro j hj
    have := id_iff_uri h hi hj
    by_cases hc : j.uri = i.uri
    · have he := eq_of_uri h hi hj hc
      subst he
      have hp : (rsOf j).id = j.id := rfl
      simp only [Function.comp, if_pos hp, if_true]
      exact hg
    · have hn : ¬ (rsOf j).id = i.id := fun he => hc (this.mp he)
      simp only [Function.comp, if_neg hn, if_neg hc]

theorem nodup_replace {l : List Bytes} (h : l.Nodup) {q v : Bytes} (hv : v = q ∨ v ∉ l) :
    (l.map fun x => if x = q then v else x).Nodup := by
  induction l with
  | nil => simp
  | cons a l ih =>
    rw [List.nodup_cons] at h
    have hv' : v = q ∨ v ∉ l := hv.imp id fun hn hm => hn (List.mem_cons_of_mem _ hm)
    rw [List.map_cons, List.nodup_cons]
    refine ⟨fun hm => ?_, ih h.2 hv'⟩
    obtain ⟨x, hx, he⟩ := List.mem_map.mp hm
    by_cases h1 : x = q <;> by_cases h2 : a = q
    · exact h.1 (by rw [h2, ← h1]; exact hx)
    · rw [if_pos h1, if_neg h2] at he
      rcases hv with hv | hv
      · exact h2 (he.symm.trans hv)
      · exact hv (by rw [he]; exact List.mem_cons_self ..)
    · rw [if_neg h1, if_pos h2] at he
      rcases hv with hv | hv
      · exact h1 (he.trans hv)
      · exact hv (by rw [← he]; exact List.mem_cons_of_mem _ hx)
    · rw [if_neg h1, if_neg h2] at he
      exact h.1 (he ▸ hx)

/-- A row is changed, its number stays, its path may become another that is free. -/
theorem rows_change {U : Bytes → Prop} {app : List Rs} {items : List Item} (h : Rows U app items) {q v : Bytes}
    (f : Item → Item) (hid : ∀ j, (f j).id = j.id) (huri : ∀ j, j ∈ items → j.uri = q → (f j).uri = v) (hU : U v)
    (hv : v = q ∨ v ∉ items.map (·.uri)) : Rows U app (items.map fun j => if j.uri = q then f j else j) := by
  have h1 : (items.map fun j => if j.uri = q then f j else j).map (·.id) = items.map (·.id) := by
    rw [List.map_map]
    apply List.map_congr_left
    intro j _
    simp only [Function.comp]
    split
    · exact hid j
    · rfl
  have h2 : (items.map fun j => if j.uri = q then f j else j).map (·.uri) =
      (items.map (·.uri)).map fun x => if x = q then v else x := by
    rw [List.map_map, List.map_map]
    apply List.map_congr_left
    intro j hj
    simp only [Function.comp]
    by_cases hc : j.uri = q
    · rw [if_pos hc, if_pos hc, huri j hj hc]
    · rw [if_neg hc, if_neg hc]
  refine ⟨by rw [h1]; exact h.ids, fun a ha i hi => ?_, by rw [h2]; exact nodup_replace h.uris hv, fun i hi => ?_⟩
  · have : i.id ∈ items.map (·.id) := by rw [← h1]; exact List.mem_map_of_mem hi
    obtain ⟨j, hj, he⟩ := List.mem_map.mp this
    rw [← he]
    exact h.own a ha j hj
  · obtain ⟨j, hj, rfl⟩ := List.mem_map.mp hi
    by_cases hc : j.uri = q
    · rw [if_pos hc, huri j hj hc]; exact hU
    · rw [if_neg hc]; exact h.allowed j hj

theorem below_change {n : Nat} {items : List Item} (h : ∀ i, i ∈ items → i.id < n) {q : Bytes}
    (f : Item → Item) (hid : ∀ j, (f j).id = j.id) :
    ∀ i, i ∈ (items.map fun j => if j.uri = q then f j else j) → i.id < n := by
  intro i hi
  obtain ⟨j, hj, rfl⟩ := List.mem_map.mp hi
  split
  · rw [hid]; exact h j hj
  · exact h j hj

/-! ## Update -/

theorem setUri_rts (rv : Recv) (l : List Bytes) (v : Bytes) (s : St) :
    setUri { rv with rts := l } v s = (setUri rv v s).bind fun x => .ok (x.1, { x.2 with rts := l }) := by
  unfold setUri
  by_cases h : rv.uri = v
  · simp only [h, if_true, Out.bind]
  · simp only [h, if_false]
    cases findRep s.rscs rv.uri s.reps with
    | ub => rfl
    | ok o => cases o <;> rfl

theorem setUri_again {rv : Recv} {v : Bytes} {s : St} {x : St × Recv} (h : setUri rv v s = .ok x) :
    setUri x.2 v x.1 = .ok x := by
  have hv : x.2.uri = v := by
    unfold setUri at h
    split at h
    · rename_i hu
      cases h
      exact hu
    · cases hf : findRep s.rscs rv.uri s.reps with
      | ub => rw [hf] at h; cases h
      | ok o =>
        rw [hf] at h
        cases o <;> (cases h; rfl)
  unfold setUri
  rw [if_pos hv]

/-- Setting the path, if the payload gives it. -/
def setSaid (said : Bool) (v : Bytes) (rv : Recv) (s : St) : Out (St × Recv) :=
  if said then setUri rv v s else .ok (s, rv)

theorem updObj_eq {v : Bytes} (rep : Rep) (hc : Clean v rep) : ∀ (rv : Recv) (s : St),
    updObj rep rv s = (setSaid (saidUri rep).isSome v rv s).bind fun x =>
      .ok (x.1, { x.2 with rts := (saidRts rep).getD x.2.rts }) := by
  induction rep with
  | nil => intro rv s; rfl
  | cons p l ih =>
    intro rv s
    obtain ⟨h1, h2⟩ := clean_cons hc
    have ih := ih h2
    obtain ⟨n, x⟩ := p
    rw [saidUri_cons, saidRts_cons]
    rcases h1 n x (List.mem_singleton.mpr rfl) with ⟨u, rfl, hu⟩ | ⟨t, rfl, ht⟩
    · have hr : saidRts [(n, Val.str u)] = none := rfl
      rw [hr, or_none]
      rw [updObj]
      by_cases hn : n = b "receiveruri"
      · have hs : saidUri [(n, Val.str u)] = some u := by simp [saidUri, hn]
        rw [hs, if_pos hn, hu hn]
        have : ((saidUri l).or (some v)).isSome = true := by cases saidUri l <;> rfl
        rw [this]
        unfold setSaid
        rw [if_pos rfl]
        cases hx : setUri rv v s with
        | ub => rfl
        | ok x =>
          simp only [Out.bind]
          rw [ih]
          unfold setSaid
          split
          · rw [setUri_again hx]; rfl
          · rfl
      · have hs : saidUri [(n, Val.str u)] = none := by simp [saidUri, hn]
        rw [hs, or_none, if_neg hn]
        exact ih rv s
    · have hs : saidUri [(n, Val.strs t)] = none := rfl
      rw [hs, or_none]
      rw [updObj]
      by_cases hn : n = b "rts"
      · have hr : saidRts [(n, Val.strs t)] = some t := by simp [saidRts, hn]
        rw [hr, if_pos hn, arrCopy_tidy ht, ih]
        unfold setSaid
        split
        · rw [setUri_rts]
          cases setUri rv v s with
          | ub => rfl
          | ok x => simp only [Out.bind]; cases saidRts l <;> rfl
        · simp only [Out.bind]; cases saidRts l <;> rfl
      · have hr : saidRts [(n, Val.strs t)] = none := by simp [saidRts, hn]
        rw [hr, or_none, if_neg hn]
        exact ih rv s

theorem map_same {U : Bytes → Prop} {app : List Rs} {items : List Item} (h : Rows U app items) {i : Item}
    (hi : i ∈ items) (f : Item → Item) (hf : rsOf (f i) = rsOf i) :
    (items.map fun j => if j.uri = i.uri then f j else j).map rsOf = items.map rsOf := by
  rw [List.map_map]
  apply List.map_congr_left
  intro j hj
  simp only [Function.comp]
  split
  · rename_i hc
    rw [eq_of_uri h hi hj hc, hf]
  · rfl

theorem setUri_rel {U : Bytes → Prop} {taken : Bytes → Bool} {app : List Rs} (hp : Paths U taken app)
    {s : St} {t : Table} (h : Rel U app s t) {i : Item} (hi : i ∈ t.items) {v : Bytes} (hv : U v) :
    setUri (recvOf i) v s =
      .ok ({ s with rscs := app ++ (t.items.map fun j => if j.uri = i.uri then { j with uri := v } else j).map rsOf },
           { recvOf i with uri := v }) := by
  unfold setUri
  by_cases hu : (recvOf i).uri = v
  · rw [if_pos hu]
    have hu' : i.uri = v := hu
    rw [map_same h.rows hi (fun j => { j with uri := v }) (by rw [← hu']), ← h.rscs]
    simp only [recvOf, hu']
  · rw [if_neg hu, h.reps, h.rscs]
    show Out.bind (findRep _ i.uri _) _ = _
    rw [findRep_sub h.rows i.uri t.items (fun _ hx => hx), find_mem (f := Item.uri) h.rows.uris hi]
    obtain ⟨_, _, _, hst⟩ := head_slash hp hv
    simp only [Option.map_some, Out.bind]
    have := map_rscs h.rows hi (fun j => { j with uri := v }) (fun r => { r with uri := store v }) (by rw [hst]; rfl)
    rw [show (repOf i).rsc = i.id from rfl, this]

theorem setSaid_rel {U : Bytes → Prop} {taken : Bytes → Bool} {app : List Rs} (hp : Paths U taken app)
    {s : St} {t : Table} (h : Rel U app s t) {i : Item} (hi : i ∈ t.items) {v : Bytes} (hv : U v) {o : Option Bytes}
    (ho : ∀ u, o = some u → u = v) :
    setSaid o.isSome v (recvOf i) s =
      .ok ({ s with rscs := app ++ (t.items.map fun j => if j.uri = i.uri then { j with uri := o.getD j.uri } else j).map rsOf },
           { recvOf i with uri := o.getD i.uri }) := by
  cases o with
  | none =>
    unfold setSaid
    rw [if_neg (by simp), map_same h.rows hi (fun j => { j with uri := (none : Option Bytes).getD j.uri }) rfl, ← h.rscs]
    rfl
  | some u =>
    have := ho u rfl
    subst this
    exact setUri_rel hp h hi hv

theorem postOne_rel {U : Bytes → Prop} {taken : Bytes → Bool} {app : List Rs} (hp : Paths U taken app)
    {s : St} {t : Table} (h : Rel U app s t) {q : Bytes} {rep : Rep} (hf : Fits U t (.post (some q) rep)) :
    ∃ s', postOne taken q rep s = .ok (s', (Spec.postOne q rep t).2) ∧ Rel U app s' (Spec.postOne q rep t).1 := by
  obtain ⟨hq, v, hv, hc, hvq⟩ := hf
  unfold postOne Spec.postOne
  rw [h.recvs, findRecv_rel hp h.rows.allowed hq]
  by_cases hm : q ∈ t.items.map (·.uri)
  · obtain ⟨i, hi, rfl⟩ := List.mem_map.mp hm
    rw [find_mem (f := Item.uri) h.rows.uris hi, if_pos hm]
    simp only [Option.map_some]
    rw [updObj_eq rep hc, setSaid_rel hp h hi hv (fun u hu => saidUri_clean hc hu)]
    simp only [Out.bind]
    refine ⟨_, rfl, ?_⟩
    let f : Item → Item := fun j => { j with uri := (saidUri rep).getD j.uri, rts := (saidRts rep).getD j.rts }
    have huri : ∀ j, j ∈ t.items → j.uri = i.uri → (f j).uri = (saidUri rep).getD i.uri := by
      intro j _ he
      show (saidUri rep).getD j.uri = _
      rw [he]
    have hU : U ((saidUri rep).getD i.uri) ∧
        ((saidUri rep).getD i.uri = i.uri ∨ (saidUri rep).getD i.uri ∉ t.items.map (·.uri)) := by
      cases hs : saidUri rep with
      | none => exact ⟨h.rows.allowed i hi, Or.inl rfl⟩
      | some u =>
        have := saidUri_clean hc hs
        subst this
        refine ⟨hv, ?_⟩
        rcases hvq with hvq | hvq
        · exact Or.inl hvq
        · exact Or.inr hvq.2
    refine ⟨?_, ?_, ?_, h.next, rows_change h.rows f (fun _ => rfl) huri hU.1 hU.2, h.below.1,
      below_change h.below.2 f fun _ => rfl⟩
    · show s.recvs.map _ = _
      rw [h.recvs]
      exact map_recvs h.rows hi f _ rfl
    · show s.reps = _
      rw [h.reps]
      have := map_reps h.rows hi f id rfl
      simpa using this
    · dsimp only
      congr 1
      rw [List.map_map, List.map_map]
      apply List.map_congr_left
      intro j _
      simp only [Function.comp]
      split <;> rfl
  · rw [find_uri_none.mpr hm, if_neg hm]
    have hvq : v = q := hvq.elim id fun hx => absurd hx.1 hm
    subst hvq
    obtain ⟨h1, h2⟩ := create_rel hp h hv hm hc
    rw [h.rscs, findApp_rel hp t.items hq, find_uri_none.mpr hm]
    simp only [Option.map_none, Option.isSome_none, Bool.false_eq_true, if_false]
    rw [h2]
    by_cases hb : (saidUri rep).isSome ∧ (saidRts rep).isSome
    · simp only [hb, and_self, decide_true, if_true]
      exact ⟨_, rfl, h1⟩
    · rw [if_neg hb]
      simp only [hb, decide_false, Bool.false_eq_true, if_false]
      refine ⟨_, rfl, ?_⟩
      have : add t rep = t := by
        unfold add
        split
        · rename_i h3 h4
          exact absurd ⟨by rw [h3]; rfl, by rw [h4]; rfl⟩ hb
        · rfl
      rw [this] at h1
      exact h1

/-! ## Replace -/

theorem saidUri_some {o : Rep} : (saidUri o).isSome ↔ o.any (fun p => match p.2 with | .str _ => p.1 == b "receiveruri" | _ => false) = true := by
  unfold saidUri
  rw [List.findSome?_isSome_iff, List.any_eq_true]
  constructor
  · rintro ⟨p, hp, hx⟩
    refine ⟨p, List.mem_reverse.mp hp, ?_⟩
    obtain ⟨n, x⟩ := p
    cases x <;> simp_all
  · rintro ⟨p, hp, hx⟩
    refine ⟨p, List.mem_reverse.mpr hp, ?_⟩
    obtain ⟨n, x⟩ := p
    cases x <;> simp_all

theorem saidRts_some {o : Rep} : (saidRts o).isSome ↔ o.any (fun p => match p.2 with | .strs _ => p.1 == b "rts" | _ => false) = true := by
  unfold saidRts
  rw [List.findSome?_isSome_iff, List.any_eq_true]
  constructor
  · rintro ⟨p, hp, hx⟩
    refine ⟨p, List.mem_reverse.mp hp, ?_⟩
    obtain ⟨n, x⟩ := p
    cases x <;> simp_all
  · rintro ⟨p, hp, hx⟩
    refine ⟨p, List.mem_reverse.mpr hp, ?_⟩
    obtain ⟨n, x⟩ := p
    cases x <;> simp_all

theorem validObj_iff (o : Rep) : validObj o = true ↔
    (∀ p, p ∈ o → (∃ v, p.2 = .str v) ∨ ∃ w, p.2 = .strs w) ∧ (saidUri o).isSome ∧ (saidRts o).isSome := by
  unfold validObj
  rw [Bool.and_eq_true, Bool.and_eq_true, saidUri_some, saidRts_some, List.all_eq_true]
  refine and_congr_left fun _ => forall_congr' fun p => forall_congr' fun _ => ?_
  obtain ⟨n, x⟩ := p
  cases x <;> simp

theorem lists_iff (rep : Rep) (l : List Rep) :
    Lists rep l ↔ (∃ n r, rep = (n, .objs l) :: r) ∧ validList l = true := by
  unfold Lists validList
  refine and_congr_right fun _ => ?_
  rw [Bool.and_eq_true, List.all_eq_true]
  refine and_congr ?_ (forall_congr' fun o => forall_congr' fun _ => (validObj_iff o).symm)
  cases l <;> simp

theorem replace_rel {U : Bytes → Prop} {taken : Bytes → Bool} {app : List Rs} (hp : Paths U taken app)
    {s : St} {t : Table} (h : Rel U app s t) {rep : Rep} (hf : Fits U t (.post none rep)) :
    ∃ s', replace taken rep s = .ok (s', (Spec.step t (.post none rep)).2.1) ∧ Rel U app s' (Spec.step t (.post none rep)).1 := by
  unfold Spec.step
  dsimp only
  by_cases hl : ∃ l, Lists rep l
  · rw [dif_pos hl]
    have hspec := hl.choose_spec
    generalize hl.choose = l at hspec
    obtain ⟨vs, hn, hU, hlen, hc⟩ := hf l hspec
    obtain ⟨⟨n, r, rfl⟩, hv⟩ := (lists_iff rep l).mp hspec
    unfold replace
    simp only [hv, if_true]
    rw [h.recvs, purgeList_rel hp t.items h.rows s h.reps h.rscs]
    refine ⟨_, rfl, createAll_rel hp l vs _ _ ⟨rfl, rfl, by simp, h.next, ⟨by simp, by simp, by simp, by simp⟩, h.below.1, by simp⟩ hn hU hlen hc (by simp)⟩
  · rw [dif_neg hl]
    refine ⟨s, ?_, h⟩
    unfold replace
    split
    · rename_i n l r
      rw [if_neg fun hv => hl ⟨l, (lists_iff _ l).mpr ⟨⟨n, r, rfl⟩, hv⟩⟩]
    · rfl

/-! ## Delete -/

theorem delete_rel {U : Bytes → Prop} {taken : Bytes → Bool} {app : List Rs} (hp : Paths U taken app)
    {s : St} {t : Table} (h : Rel U app s t) {q : Option Bytes} (hf : Fits U t (.delete q)) :
    ∃ s', delete q s = .ok (s', (Spec.step t (.delete q)).2.1) ∧ Rel U app s' (Spec.step t (.delete q)).1 := by
  cases q with
  | none =>
    unfold delete Spec.step
    dsimp only
    rw [h.recvs, purgeList_rel hp t.items h.rows s h.reps h.rscs]
    exact ⟨_, rfl, ⟨rfl, rfl, by simp, h.next, ⟨by simp, by simp, by simp, by simp⟩, h.below.1, by simp⟩⟩
  | some q =>
    unfold delete Spec.step
    dsimp only
    rw [h.recvs, findRecv_rel hp h.rows.allowed hf]
    by_cases hm : q ∈ t.items.map (·.uri)
    · obtain ⟨i, hi, rfl⟩ := List.mem_map.mp hm
      rw [find_mem (f := Item.uri) h.rows.uris hi, if_pos hm]
      simp only [Option.map_some]
      rw [show (recvOf i).uri = i.uri from rfl, purge_rel hp h.rows hi (by exact h.reps) (by exact h.rscs)]
      refine ⟨_, rfl, ⟨?_, rfl, rfl, h.next, rows_filter h.rows _, h.below.1,
        fun j hj => h.below.2 j (List.mem_filter.mp hj).1⟩⟩
      dsimp only
      rw [List.filter_map, ← filter_id_uri h.rows hi]
      rfl
    · rw [find_uri_none.mpr hm, if_neg hm]
      exact ⟨s, rfl, h⟩

/-! ## Push and get -/

theorem common_eq (p : Bytes × Val) : common p = isCommon p := by
  obtain ⟨n, x⟩ := p
  cases x <;> rfl

theorem setCommon_all (rep : Rep) (ht : ∀ l, Typed rep l → Tidy l) : ∀ r : Rs,
    rep.foldl setCommon r = { r with types := (lastStrs (b "rt") rep).getD r.types
                                     ifaces := ((lastStrs (b "if") rep).map ifMask).getD r.ifaces
                                     name := (lastStr (b "n") rep).getD r.name } := by
  induction rep with
  | nil => intro r; rfl
  | cons p l ih =>
    intro r
    rw [List.foldl_cons, ih (fun x hx => ht x (List.mem_cons_of_mem _ hx)), lastStrs_cons (b "rt") p l, lastStrs_cons (b "if") p l,
      lastStr_cons (b "n") p l]
    obtain ⟨n, x⟩ := p
    cases x with
    | strs w =>
      have h3 : lastStr (b "n") [(n, Val.strs w)] = none := rfl
      rw [h3, or_none]
      by_cases h1 : n = b "rt"
      · subst h1
        have hw := arrCopy_tidy (ht w (List.mem_cons_self ..))
        have h4 : lastStrs (b "rt") [(b "rt", Val.strs w)] = some w := by simp [lastStrs]
        have h5 : lastStrs (b "if") [(b "rt", Val.strs w)] = none := by
          simp [lastStrs, show b "rt" ≠ b "if" by decide]
        rw [h4, h5, or_none]
        simp only [setCommon, if_true, hw]
        cases lastStrs (b "rt") l <;> rfl
      · have h4 : lastStrs (b "rt") [(n, Val.strs w)] = none := by simp [lastStrs, h1]
        rw [h4, or_none]
        by_cases h2 : n = b "if"
        · have h5 : lastStrs (b "if") [(n, Val.strs w)] = some w := by simp [lastStrs, h2]
          rw [h5]
          simp only [setCommon, if_neg h1, if_pos h2]
          cases lastStrs (b "if") l <;> rfl
        · have h5 : lastStrs (b "if") [(n, Val.strs w)] = none := by simp [lastStrs, h2]
          rw [h5, or_none]
          simp only [setCommon, if_neg h1, if_neg h2]
    | str w =>
      have h4 : ∀ k, lastStrs k [(n, Val.str w)] = none := fun _ => rfl
      rw [h4, h4, or_none, or_none]
      by_cases h1 : n = b "n"
      · have h5 : lastStr (b "n") [(n, Val.str w)] = some w := by simp [lastStr, h1]
        rw [h5]
        simp only [setCommon, if_pos h1]
        cases lastStr (b "n") l <;> rfl
      · have h5 : lastStr (b "n") [(n, Val.str w)] = none := by simp [lastStr, h1]
        rw [h5, or_none]
        simp only [setCommon, if_neg h1]
    | _ =>
      rw [show lastStrs (b "rt") [_] = none from rfl, show lastStrs (b "if") [_] = none from rfl,
        show lastStr (b "n") [_] = none from rfl, or_none, or_none, or_none]
      rfl

theorem checkRt_iff {rts : List Bytes} {rep : Rep} (hne : rep ≠ []) (hu : ∀ l l', Typed rep l → Typed rep l' → l = l') :
    checkRt rts rep = true ↔ Accepted rts rep := by
  unfold Accepted
  cases hr : rep with
  | nil => exact absurd hr hne
  | cons p0 l0 =>
    rw [← hr]
    have h0 : checkRt rts rep = if rts = [[]] then true
        else match rep.find? isRt with
          | some (_, .strs l) => l.all fun t => rts.contains t
          | _ => false := by rw [hr]; rfl
    rw [h0]
    by_cases h1 : rts = [[]]
    · simp [h1]
    · rw [if_neg h1]
      cases hf : rep.find? isRt with
      | none =>
        simp only [h1, false_or, Bool.false_eq_true, false_iff]
        rintro ⟨l, hl, _⟩
        rw [List.find?_eq_none] at hf
        exact hf _ hl rfl
      | some p =>
        obtain ⟨n, x⟩ := p
        have hm := List.mem_of_find?_eq_some hf
        have hq := List.find?_some hf
        cases x with
        | strs l =>
          have hn : n = b "rt" := by simpa [isRt] using hq
          subst hn
          simp only [h1, false_or, List.all_eq_true, List.contains_iff_mem]
          constructor
          · intro ha
            exact ⟨l, hm, ha⟩
          · rintro ⟨l', hl', ha⟩
            rw [hu l l' hm hl']
            exact ha
        | _ => simp [isRt] at hq

theorem push_rel {U : Bytes → Prop} {taken : Bytes → Bool} {app : List Rs} (hp : Paths U taken app)
    {s : St} {t : Table} (h : Rel U app s t) {u : Bytes} {rep : Rep} (hf : Fits U t (.push u rep)) :
    ∃ s', push u rep s = .ok (s', (Spec.step t (.push u rep)).2.1) ∧ Rel U app s' (Spec.step t (.push u rep)).1 := by
  obtain ⟨hu, hone, htidy, hplain, hrest⟩ := hf
  unfold push Spec.step
  dsimp only
  rw [h.rscs, findApp_rel hp t.items hu]
  cases hfi : t.items.find? (fun i => decide (i.uri = u)) with
  | none => exact ⟨s, rfl, h⟩
  | some i =>
    have hi := List.mem_of_find?_eq_some hfi
    have hiu : i.uri = u := by simpa using List.find?_some hfi
    subst hiu
    have hne : rep ≠ [] := fun he => hrest (by rw [he]; rfl)
    simp only [Option.map_some]
    have hps : ¬ (rsOf i).pushed = false := Bool.true_eq_false.mp
    rw [if_neg hps, show (rsOf i).uri = i.uri from rfl, h.recvs, findRecv_rel hp h.rows.allowed hu, hfi]
    simp only [Option.map_some]
    have hchk := checkRt_iff (rts := i.rts) hne hone
    rw [show (recvOf i).rts = i.rts from rfl]
    by_cases ha : Accepted i.rts rep
    · rw [if_pos (hchk.mpr ha), if_pos ha]
      have hcf : (rep.filter fun p => !common p) = rep.filter fun p => !isCommon p := by
        apply List.filter_congr
        intro p _
        rw [common_eq]
      rw [hcf]
      let f1 : Item → Item := fun j =>
        { j with types := (lastStrs (b "rt") rep).getD j.types
                 ifaces := ((lastStrs (b "if") rep).map ifMask).getD j.ifaces
                 name := (lastStr (b "n") rep).getD j.name }
      have h1 := map_rscs h.rows hi f1 (rep.foldl setCommon) (setCommon_all rep htidy _)
      have hr1 : Rows U app (t.items.map fun j => if j.uri = i.uri then f1 j else j) :=
        rows_change h.rows f1 (fun _ => rfl) (fun j _ he => he) hu (Or.inl rfl)
      have hrep1 : t.items.map repOf = (t.items.map fun j => if j.uri = i.uri then f1 j else j).map repOf := by
        have := map_reps h.rows hi f1 id rfl
        simpa using this
      have hi1 : f1 i ∈ (t.items.map fun j => if j.uri = i.uri then f1 j else j) :=
        List.mem_map.mpr ⟨i, hi, by rw [if_pos rfl]⟩
      unfold keep
      dsimp only
      rw [show (rsOf i).id = i.id from rfl, h1, h.reps, hrep1]
      have hfr := findRep_sub hr1 i.uri _ (fun _ hx => hx)
      have hfm : ((t.items.map fun j => if j.uri = i.uri then f1 j else j).find? fun j => decide (j.uri = i.uri)) = some (f1 i) :=
        find_mem (f := Item.uri) hr1.uris hi1
      rw [hfr, hfm]
      simp only [Option.map_some, Out.bind]
      rw [show (repOf (f1 i)).rsc = i.id from rfl, copyRep_plain _ hplain]
      let f2 : Item → Item := fun j => { j with disc := true }
      let f3 : Item → Item := fun j => { j with content := rep.filter fun p => !isCommon p }
      have h2 := map_rscs hr1 hi1 f2 (fun q => { q with disc := true }) rfl
      have h3 := map_reps hr1 hi1 f3 (fun q => { q with rep := rep.filter fun p => !isCommon p }) rfl
      rw [show (f1 i).id = i.id from rfl] at h2 h3
      rw [show (f1 i).uri = i.uri from rfl] at h2 h3
      rw [h3]
      cases hre : (rep.filter fun p => !isCommon p) with
      | nil => exact absurd hre hrest
      | cons p0 l0 =>
        dsimp only
        rw [h2]
        refine ⟨_, rfl, ⟨?_, ?_, ?_, h.next, rows_change h.rows (pushed rep) (fun _ => rfl) (fun j _ he => he) hu (Or.inl rfl),
          h.below.1, below_change h.below.2 (pushed rep) fun _ => rfl⟩⟩
        · dsimp only
          rw [List.map_map]
          apply List.map_congr_left
          intro j _
          simp only [Function.comp]
          split <;> rfl
        · dsimp only
          rw [List.map_map, List.map_map, List.map_map]
          apply List.map_congr_left
          intro j _
          simp only [Function.comp]
          by_cases hc : j.uri = i.uri
          · rw [if_pos hc, if_pos hc, if_pos (show (f1 j).uri = i.uri from hc)]
            rfl
          · rw [if_neg hc, if_neg hc, if_neg hc]
        · dsimp only
          congr 1
          rw [List.map_map, List.map_map, List.map_map]
          apply List.map_congr_left
          intro j _
          simp only [Function.comp]
          by_cases hc : j.uri = i.uri
          · rw [if_pos hc, if_pos hc, if_pos (show (f1 j).uri = i.uri from hc)]
            rfl
          · rw [if_neg hc, if_neg hc, if_neg hc]
    · rw [if_neg fun hx => ha (hchk.mp hx), if_neg ha]
      exact ⟨s, rfl, h⟩

/-- The contents a device keeps can be shown as they are. -/
def Shown (t : Table) : Prop := ∀ i, i ∈ t.items → plainRep i.content = true

theorem get_rel {U : Bytes → Prop} {taken : Bytes → Bool} {app : List Rs} (hp : Paths U taken app)
    {s : St} {t : Table} (h : Rel U app s t) (hs : Shown t) {u : Bytes} (hu : U u) :
    get u true s = .ok (Spec.step t (.get u)).2 ∧ (Spec.step t (.get u)).1 = t := by
  unfold get Spec.step
  dsimp only
  rw [h.rscs, findApp_rel hp t.items hu]
  cases hfi : t.items.find? (fun i => decide (i.uri = u)) with
  | none => exact ⟨rfl, rfl⟩
  | some i =>
    have hi := List.mem_of_find?_eq_some hfi
    have hiu : i.uri = u := by simpa using List.find?_some hfi
    subst hiu
    have hps : ¬ (rsOf i).pushed = false := Bool.true_eq_false.mp
    simp only [Option.map_some]
    rw [if_neg hps, show (rsOf i).uri = i.uri from rfl, h.reps, findRep_sub h.rows i.uri t.items (fun _ hx => hx), hfi]
    simp only [Option.map_some, Out.bind]
    rw [show (repOf i).rep = i.content from rfl, showRep_plain _ (hs i hi)]
    cases i.content <;> exact ⟨rfl, rfl⟩

theorem shown_step {U : Bytes → Prop} {t : Table} (hs : Shown t) {o : Op} (hf : Fits U t o) : Shown (Spec.step t o).1 := by
  have hadd : ∀ (l : List Rep) (t : Table), Shown t → Shown (l.foldl add t) := by
    intro l
    induction l with
    | nil => exact fun t h => h
    | cons o l ih =>
      intro t h
      refine ih _ ?_
      unfold add
      split
      · intro i hi
        rcases List.mem_append.mp hi with hi | hi
        · exact h i hi
        · rw [List.mem_singleton] at hi
          subst hi
          rfl
      · exact h
  cases o with
  | post q rep =>
    cases q with
    | some q =>
      unfold Spec.step Spec.postOne
      dsimp only
      split
      · intro i hi
        obtain ⟨j, hj, rfl⟩ := List.mem_map.mp hi
        split
        · exact hs j hj
        · exact hs j hj
      · split
        · exact hadd [rep] t hs
        · exact hs
    | none =>
      unfold Spec.step
      dsimp only
      split
      · exact hadd _ _ fun i hi => by cases hi
      · exact hs
  | delete q =>
    cases q with
    | some q =>
      unfold Spec.step
      dsimp only
      split
      · exact fun i hi => hs i (List.mem_filter.mp hi).1
      · exact hs
    | none => exact fun i hi => by cases hi
  | push u rep =>
    unfold Spec.step
    dsimp only
    split
    · exact hs
    · split
      · intro i hi
        obtain ⟨j, hj, rfl⟩ := List.mem_map.mp hi
        split
        · exact hf.2.2.2.1
        · exact hs j hj
      · exact hs
  | get u =>
    unfold Spec.step
    dsimp only
    split
    · exact hs
    · split <;> exact hs

/-- One request. -/
theorem step_rel {U : Bytes → Prop} {taken : Bytes → Bool} {app : List Rs} (hp : Paths U taken app)
    {s : St} {t : Table} (h : Rel U app s t) (hs : Shown t) {o : Op} (hf : Fits U t o) :
    ∃ s', step taken s o = .ok (s', (Spec.step t o).2) ∧ Rel U app s' (Spec.step t o).1 := by
  cases o with
  | post q rep =>
    cases q with
    | some q =>
      obtain ⟨s', h1, h2⟩ := postOne_rel hp h hf
      exact ⟨s', by simp only [step, post, h1, Out.bind]; rfl, h2⟩
    | none =>
      obtain ⟨s', h1, h2⟩ := replace_rel hp h hf
      refine ⟨s', ?_, h2⟩
      simp only [step, post, h1, Out.bind]
      unfold Spec.step
      dsimp only
      split <;> rfl
  | delete q =>
    obtain ⟨s', h1, h2⟩ := delete_rel hp h hf
    refine ⟨s', ?_, h2⟩
    simp only [step, h1, Out.bind]
    unfold Spec.step
    cases q with
    | none => rfl
    | some q => dsimp only; split <;> rfl
  | push u rep =>
    obtain ⟨s', h1, h2⟩ := push_rel hp h hf
    refine ⟨s', ?_, h2⟩
    simp only [step, h1, Out.bind]
    unfold Spec.step
    dsimp only
    split
    · rfl
    · split <;> rfl
  | get u =>
    obtain ⟨h1, h2⟩ := get_rel hp h hs hf
    refine ⟨s, ?_, by rw [h2]; exact h⟩
    simp only [step, h1, Out.bind]

end Verif.PushRecv
