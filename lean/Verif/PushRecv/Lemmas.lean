import Verif.PushRecv.Spec

/-!
Lemmas about the push receiver resource.
-/

namespace Verif.PushRecv

open Verif.Rep (b Bytes Val Rep)
open Verif.Ri (slash ifaceMask)
open Verif.Push (arrCopy)
open Spec

/-! ## Arrays and copies -/

theorem arrCopy_tidy {l : List Bytes} (h : Tidy l) : arrCopy l = l := by
  obtain ⟨a, k, rfl, ha⟩ := h
  unfold arrCopy
  rw [List.filter_append, List.filter_append]
  have h1 : a.filter (fun x => decide (x ≠ [])) = a := List.filter_eq_self.mpr fun x hx => by simpa using ha x hx
  have h2 : a.filter (fun x => decide (x = [])) = [] := List.filter_eq_nil_iff.mpr fun x hx => by simpa using ha x hx
  rw [h1, h2]
  simp

theorem tidy_of_drop (l : List Bytes) (h : (l.dropWhile (fun x => decide (x ≠ []))).all (fun x => decide (x = [])) = true) :
    Tidy l := by
  refine ⟨l.takeWhile (fun x => decide (x ≠ [])), (l.dropWhile (fun x => decide (x ≠ []))).length, ?_, ?_⟩
  · have : l.dropWhile (fun x => decide (x ≠ [])) = List.replicate (l.dropWhile (fun x => decide (x ≠ []))).length [] := by
      rw [List.eq_replicate_iff]
      refine ⟨rfl, fun x hx => ?_⟩
      have := List.all_eq_true.mp h x hx
      simpa using this
    rw [← this, List.takeWhile_append_dropWhile]
  · clear h
    induction l with
    | nil => simp
    | cons a l ih =>
      intro x hx
      rw [List.takeWhile_cons] at hx
      split at hx
      · rename_i hc
        rcases List.mem_cons.mp hx with rfl | hx
        · simpa using hc
        · exact ih x hx
      · cases hx

mutual
theorem copyVal_plain : ∀ v : Val, plainVal v = true → copyVal v = v
  | .nil, h => rfl
  | .int _, _ => rfl
  | .dbl _, _ => rfl
  | .bool _, _ => rfl
  | .bytes _, _ => rfl
  | .str _, _ => rfl
  | .obj l, h => by rw [copyVal, copyRep_plain l (by simpa [plainVal] using h)]
  | .arr, _ => rfl
  | .ints _, _ => rfl
  | .dbls _, _ => rfl
  | .bools _, _ => rfl
  | .bytess _, h => by simp [plainVal] at h
  | .strs l, h => by
    rw [copyVal, arrCopy_tidy (tidy_of_drop l (by rw [plainVal] at h; exact h))]
  | .objs l, h => by rw [copyVal, copyObjs_plain l (by simpa [plainVal] using h)]
theorem copyRep_plain : ∀ l : List (Bytes × Val), plainRep l = true → copyRep l = l
  | [], _ => rfl
  | p :: l, h => by
    rw [plainRep, Bool.and_eq_true] at h
    rw [copyRep, copyProp_plain p h.1, copyRep_plain l h.2]
theorem copyProp_plain : ∀ p : Bytes × Val, plainProp p = true → copyProp p = p
  | (n, v), h => by rw [copyProp, copyVal_plain v (by simpa [plainProp] using h)]
theorem copyObjs_plain : ∀ l : List (List (Bytes × Val)), plainObjs l = true → copyObjs l = l
  | [], _ => rfl
  | o :: l, h => by
    rw [plainObjs, Bool.and_eq_true] at h
    rw [copyObjs, copyRep_plain o h.1, copyObjs_plain l h.2]
end

mutual
theorem showVal_plain : ∀ v : Val, plainVal v = true → showVal v = some v
  | .nil, h => by simp [plainVal] at h
  | .int _, _ => rfl
  | .dbl _, _ => rfl
  | .bool _, _ => rfl
  | .bytes _, _ => rfl
  | .str _, _ => rfl
  | .obj l, h => by rw [showVal, showRep_plain l (by simpa [plainVal] using h)]
  | .arr, h => by simp [plainVal] at h
  | .ints _, _ => rfl
  | .dbls _, _ => rfl
  | .bools _, _ => rfl
  | .bytess _, _ => rfl
  | .strs l, _ => rfl
  | .objs l, h => by rw [showVal, showObjs_plain l (by simpa [plainVal] using h)]
theorem showRep_plain : ∀ l : List (Bytes × Val), plainRep l = true → showRep l = l
  | [], _ => rfl
  | p :: l, h => by
    rw [plainRep, Bool.and_eq_true] at h
    rw [showRep, showProp_plain p h.1, showRep_plain l h.2]
    rfl
theorem showProp_plain : ∀ p : Bytes × Val, plainProp p = true → showProp p = some p
  | (n, v), h => by rw [showProp, showVal_plain v (by simpa [plainProp] using h)]; rfl
theorem showObjs_plain : ∀ l : List (List (Bytes × Val)), plainObjs l = true → showObjs l = l
  | [], _ => rfl
  | o :: l, h => by
    rw [plainObjs, Bool.and_eq_true] at h
    rw [showObjs, showRep_plain o h.1, showObjs_plain l h.2]
end

/-! ## Payloads -/

theorem or_none {α : Type} (x : Option α) : x.or none = x := by cases x <;> rfl

/-- What is said last, with a value from before. -/
theorem saidUri_cons (p : Bytes × Val) (l : Rep) :
    saidUri (p :: l) = (saidUri l).or (saidUri [p]) := by
  unfold saidUri
  rw [List.reverse_cons, List.findSome?_append]
  rfl

theorem saidRts_cons (p : Bytes × Val) (l : Rep) :
    saidRts (p :: l) = (saidRts l).or (saidRts [p]) := by
  unfold saidRts
  rw [List.reverse_cons, List.findSome?_append]
  rfl

theorem lastStrs_cons (n : Bytes) (p : Bytes × Val) (l : Rep) :
    lastStrs n (p :: l) = (lastStrs n l).or (lastStrs n [p]) := by
  unfold lastStrs
  rw [List.reverse_cons, List.findSome?_append]
  rfl

theorem lastStr_cons (n : Bytes) (p : Bytes × Val) (l : Rep) :
    lastStr n (p :: l) = (lastStr n l).or (lastStr n [p]) := by
  unfold lastStr
  rw [List.reverse_cons, List.findSome?_append]
  rfl

theorem take1_eq {v : Bytes} {p : Bytes × Val} (h : Clean v [p]) (d : Option Bytes × Option (List Bytes)) :
    take1 d p = ((saidUri [p]).or d.1, (saidRts [p]).or d.2) := by
  obtain ⟨n, x⟩ := p
  rcases h n x (List.mem_singleton.mpr rfl) with ⟨s, rfl, _⟩ | ⟨l, rfl, ht⟩
  · simp only [take1, saidUri, saidRts, List.reverse_singleton, List.findSome?_cons, List.findSome?_nil]
    by_cases hn : n = b "receiveruri"
    · simp [hn]
    · simp [hn]
  · simp only [take1, saidUri, saidRts, List.reverse_singleton, List.findSome?_cons, List.findSome?_nil]
    by_cases hn : n = b "rts"
    · simp [hn, arrCopy_tidy ht]
    · simp [hn]

theorem clean_cons {v : Bytes} {p : Bytes × Val} {l : Rep} (h : Clean v (p :: l)) : Clean v [p] ∧ Clean v l :=
  ⟨fun n x hx => h n x (by rw [List.mem_singleton] at hx; rw [hx]; exact List.mem_cons_self ..),
   fun n x hx => h n x (List.mem_cons_of_mem _ hx)⟩

theorem foldl_take1 {v : Bytes} (rep : Rep) (h : Clean v rep) : ∀ d : Option Bytes × Option (List Bytes),
    rep.foldl take1 d = ((saidUri rep).or d.1, (saidRts rep).or d.2) := by
  induction rep with
  | nil => intro d; rfl
  | cons p l ih =>
    intro d
    obtain ⟨h1, h2⟩ := clean_cons h
    rw [List.foldl_cons, ih h2, take1_eq h1, saidUri_cons p l, saidRts_cons p l]
    simp only [Option.or_assoc]

theorem saidUri_clean {v u : Bytes} {rep : Rep} (h : Clean v rep) (hu : saidUri rep = some u) : u = v := by
  unfold saidUri at hu
  obtain ⟨p, hp, hq⟩ := List.exists_of_findSome?_eq_some hu
  rw [List.mem_reverse] at hp
  obtain ⟨n, x⟩ := p
  rcases h n x hp with ⟨s, rfl, hs⟩ | ⟨l, rfl, _⟩
  · simp only at hq
    split at hq
    · rename_i hn
      cases hq
      exact hs hn
    · cases hq
  · cases hq

/-! ## The relation with the table -/

/-- The receiver of a row. -/
def recvOf (i : Item) : Recv := ⟨i.id, i.uri, i.rts⟩

/-- The resource of a row. -/
def rsOf (i : Item) : Rs := ⟨i.id, i.uri, i.types, i.ifaces, i.name, i.disc, true, true⟩

/-- The representation of a row. -/
def repOf (i : Item) : PRep := ⟨i.id, i.content⟩

/-- The rows are proper: with different numbers, not of the application's resources, and
different paths of the allowed ones. -/
structure Rows (U : Bytes → Prop) (app : List Rs) (items : List Item) : Prop where
  ids : (items.map (·.id)).Nodup
  own : ∀ a, a ∈ app → ∀ i, i ∈ items → a.id ≠ i.id
  uris : (items.map (·.uri)).Nodup
  allowed : ∀ i, i ∈ items → U i.uri

/-- The state of the device is that of the table; the resources of the application are
untouched. -/
structure Rel (U : Bytes → Prop) (app : List Rs) (s : St) (t : Table) : Prop where
  recvs : s.recvs = t.items.map recvOf
  reps : s.reps = t.items.map repOf
  rscs : s.rscs = app ++ t.items.map rsOf
  next : s.next = t.next
  rows : Rows U app t.items
  below : (∀ a, a ∈ app → a.id < t.next) ∧ ∀ i, i ∈ t.items → i.id < t.next

theorem inj_of_nodup {β : Type} {f : Item → β} : ∀ {l : List Item}, (l.map f).Nodup →
    ∀ {i j : Item}, i ∈ l → j ∈ l → f i = f j → i = j
  | [], _, i, j, hi, _, _ => by cases hi
  | a :: l, h, i, j, hi, hj, he => by
    rw [List.map_cons, List.nodup_cons] at h
    rcases List.mem_cons.mp hi with h1 | h1 <;> rcases List.mem_cons.mp hj with h2 | h2
    · rw [h1, h2]
    · subst h1; exact absurd (by rw [he]; exact List.mem_map_of_mem h2) h.1
    · subst h2; exact absurd (by rw [← he]; exact List.mem_map_of_mem h1) h.1
    · exact inj_of_nodup h.2 h1 h2 he

theorem find_mem {β : Type} [DecidableEq β] {f : Item → β} {l : List Item} (h : (l.map f).Nodup) {i : Item}
    (hi : i ∈ l) : l.find? (fun j => decide (f j = f i)) = some i := by
  cases hf : l.find? (fun j => decide (f j = f i)) with
  | none =>
    rw [List.find?_eq_none] at hf
    exact absurd (by simp) (hf i hi)
  | some j =>
    have h1 := List.mem_of_find?_eq_some hf
    have h2 := List.find?_some hf
    rw [decide_eq_true_eq] at h2
    rw [inj_of_nodup h h1 hi h2]

/-- The resource with the number of a row. -/
theorem find_rsc {U : Bytes → Prop} {app : List Rs} {items : List Item} (h : Rows U app items) {i : Item}
    (hi : i ∈ items) : (app ++ items.map rsOf).find? (fun r => r.id == i.id) = some (rsOf i) := by
  rw [List.find?_append]
  have h1 : app.find? (fun r => r.id == i.id) = none := by
    rw [List.find?_eq_none]
    intro a ha
    simpa using h.own a ha i hi
  rw [h1, Option.none_or, List.find?_map]
  have : ((fun r : Rs => r.id == i.id) ∘ rsOf) = fun j => decide (j.id = i.id) := by
    funext j
    by_cases hj : j.id = i.id
    · simp [rsOf, hj]
    · simp [rsOf, hj]
  rw [this, find_mem h.ids hi]
  rfl

theorem findRep_sub {U : Bytes → Prop} {app : List Rs} {items : List Item} (h : Rows U app items) (u : Bytes) :
    ∀ l : List Item, (∀ i, i ∈ l → i ∈ items) →
      findRep (app ++ items.map rsOf) u (l.map repOf) = .ok ((l.find? fun i => decide (i.uri = u)).map repOf)
  | [], _ => rfl
  | i :: l, hl => by
    have := findRep_sub h u l fun j hj => hl j (List.mem_cons_of_mem _ hj)
    have hi := find_rsc h (hl i (List.mem_cons_self ..))
    rw [List.map_cons, findRep]
    simp only [repOf] at hi ⊢
    rw [hi]
    by_cases hu : i.uri = u
    · have hu' : (rsOf i).uri = u := hu
      simp only [if_pos hu']
      rw [List.find?_cons_of_pos (by simpa using hu)]
      rfl
    · have hu' : ¬ (rsOf i).uri = u := hu
      simp only [if_neg hu']
      rw [List.find?_cons_of_neg (by simpa using hu)]
      exact this

theorem find_uri_none {items : List Item} {u : Bytes} :
    items.find? (fun i => decide (i.uri = u)) = none ↔ u ∉ items.map (·.uri) := by
  rw [List.find?_eq_none]
  constructor
  · intro h hm
    obtain ⟨i, hi, he⟩ := List.mem_map.mp hm
    exact absurd (by simpa using he) (h i hi)
  · intro h i hi hx
    rw [decide_eq_true_eq] at hx
    exact h (List.mem_map.mpr ⟨i, hi, hx⟩)

theorem head_slash {U : Bytes → Prop} {taken : Bytes → Bool} {app : List Rs} (hp : Paths U taken app) {u : Bytes}
    (hu : U u) : ∃ l, u = slash :: l ∧ u.dropWhile (· == slash) = l ∧ store u = u := by
  obtain ⟨c, r, rfl, hc⟩ := hp.shape u hu
  refine ⟨c :: r, rfl, ?_, by simp [store]⟩
  rw [List.dropWhile_cons]
  simp only [beq_self_eq_true, if_true]
  rw [List.dropWhile_cons, if_neg (by simpa using hc)]

theorem findApp_rel {U : Bytes → Prop} {taken : Bytes → Bool} {app : List Rs} (hp : Paths U taken app)
    (items : List Item) {u : Bytes} (hu : U u) :
    findApp (app ++ items.map rsOf) u = (items.find? fun i => decide (i.uri = u)).map rsOf := by
  obtain ⟨l, hl, _, _⟩ := head_slash hp hu
  have h0 : findApp (app ++ items.map rsOf) u = (app ++ items.map rsOf).find? fun r => r.listed && (r.uri == u) := by
    subst hl
    simp [findApp]
  rw [h0, List.find?_append]
  have h1 : app.find? (fun r => r.listed && (r.uri == u)) = none := by
    rw [List.find?_eq_none]
    intro a ha
    have : a.uri ≠ u := fun he => (hp.own a ha).1 (he ▸ hu)
    simp [this]
  rw [h1, Option.none_or, List.find?_map]
  congr 1
  congr 1
  funext j
  by_cases hj : j.uri = u
  · simp [rsOf, hj]
  · simp [rsOf, hj]

theorem findRecv_rel {U : Bytes → Prop} {taken : Bytes → Bool} {app : List Rs} (hp : Paths U taken app)
    {items : List Item} (h : ∀ i, i ∈ items → U i.uri) {u : Bytes} (hu : U u) :
    findRecv (items.map recvOf) u = (items.find? fun i => decide (i.uri = u)).map recvOf := by
  unfold findRecv
  rw [List.find?_map]
  congr 1
  induction items with
  | nil => rfl
  | cons i l ih =>
    have := ih fun j hj => h j (List.mem_cons_of_mem _ hj)
    rw [List.find?_cons, List.find?_cons, this]
    have : ((fun r : Recv => u.isPrefixOf r.uri) ∘ recvOf) i = decide (i.uri = u) := by
      simp only [Function.comp, recvOf]
      by_cases hi : i.uri = u
      · rw [hi]; simp
      · have : ¬ u <+: i.uri := fun hx => hi (hp.free u i.uri hu (h i (List.mem_cons_self ..)) hx).symm
        simp only [hi, decide_false]
        rw [← Bool.not_eq_true, List.isPrefixOf_iff_prefix]
        exact this
    rw [this]

theorem inUse_rel {U : Bytes → Prop} {taken : Bytes → Bool} {app : List Rs} (hp : Paths U taken app)
    {items : List Item} (h : ∀ i, i ∈ items → U i.uri) {u : Bytes} (hu : U u) (hn : u ∉ items.map (·.uri)) :
    inUse taken (app ++ items.map rsOf) (store u) = false := by
  obtain ⟨l, hl, hd, hs⟩ := head_slash hp hu
  unfold inUse
  rw [hs, hp.core u hu, Bool.false_or, hd, ← Bool.not_eq_true, List.any_eq_true]
  rintro ⟨r, hr, hc⟩
  simp only [Bool.and_eq_true, beq_iff_eq, bne_iff_ne, ne_eq] at hc
  obtain ⟨_, h1, h2⟩ := hc
  have huri : r.uri.head? = some slash → r.uri = u := by
    intro hh
    cases hru : r.uri with
    | nil => exact absurd hru h1
    | cons c x =>
      rw [hru] at hh h2
      simp only [List.head?_cons, Option.some.injEq] at hh
      simp only [List.drop_one, List.tail_cons] at h2
      rw [hl, hh, h2]
  rcases List.mem_append.mp hr with hr | hr
  · have := hp.own r hr
    exact this.1 (huri this.2.2 ▸ hu)
  · obtain ⟨i, hi, rfl⟩ := List.mem_map.mp hr
    obtain ⟨l', hl', _, _⟩ := head_slash hp (h i hi)
    have : (rsOf i).uri = u := huri (by show i.uri.head? = _; rw [hl']; rfl)
    exact hn (List.mem_map.mpr ⟨i, hi, this⟩)

/-! ## Removing -/

theorem rows_filter {U : Bytes → Prop} {app : List Rs} {items : List Item} (h : Rows U app items) (p : Item → Bool) :
    Rows U app (items.filter p) :=
  ⟨h.ids.sublist ((List.filter_sublist).map _), fun a ha i hi => h.own a ha i (List.mem_filter.mp hi).1,
   h.uris.sublist ((List.filter_sublist).map _), fun i hi => h.allowed i (List.mem_filter.mp hi).1⟩

theorem filter_id_uri {U : Bytes → Prop} {app : List Rs} {items : List Item} (h : Rows U app items) {i : Item}
    (hi : i ∈ items) : items.filter (fun j => j.id != i.id) = items.filter fun j => decide (j.uri ≠ i.uri) := by
  apply List.filter_congr
  intro j hj
  by_cases hj2 : j = i
  · simp [hj2]
  · have h1 : j.id ≠ i.id := fun he => hj2 (inj_of_nodup h.ids hj hi he)
    have h2 : j.uri ≠ i.uri := fun he => hj2 (inj_of_nodup h.uris hj hi he)
    simp [h1, h2]

theorem purge_rel {U : Bytes → Prop} {taken : Bytes → Bool} {app : List Rs} (hp : Paths U taken app)
    {items : List Item} (h : Rows U app items) {i : Item} (hi : i ∈ items) {s : St}
    (hr : s.reps = items.map repOf) (hs : s.rscs = app ++ items.map rsOf) :
    purge i.uri s = .ok { s with reps := (items.filter fun j => decide (j.uri ≠ i.uri)).map repOf
                                 rscs := app ++ (items.filter fun j => decide (j.uri ≠ i.uri)).map rsOf } := by
  unfold purge
  rw [hr, hs, findRep_sub h i.uri items (fun _ hx => hx), findApp_rel hp items (h.allowed i hi),
    find_mem (f := Item.uri) h.uris hi]
  simp only [Option.map_some, Out.bind]
  rw [← filter_id_uri h hi, List.filter_append, List.filter_map, List.filter_map]
  have h1 : app.filter (fun q => q.id != (rsOf i).id) = app :=
    List.filter_eq_self.mpr fun a ha => by simpa [rsOf] using h.own a ha i hi
  rw [h1]
  rfl

theorem purgeList_rel {U : Bytes → Prop} {taken : Bytes → Bool} {app : List Rs} (hp : Paths U taken app) :
    ∀ (items : List Item), Rows U app items → ∀ s : St, s.reps = items.map repOf → s.rscs = app ++ items.map rsOf →
      purgeList (items.map recvOf) s = .ok { s with recvs := [], reps := [], rscs := app }
  | [], _, s, hr, hs => by
    simp only [List.map_nil, List.append_nil] at hr hs
    simp only [List.map_nil, purgeList]
    rw [← hr, ← hs]
  | i :: l, h, s, hr, hs => by
    rw [List.map_cons, purgeList]
    show Out.bind (purge i.uri s) _ = _
    rw [purge_rel hp h (List.mem_cons_self ..) hr hs]
    have hf : (i :: l).filter (fun j => decide (j.uri ≠ i.uri)) = l := by
      have hu := h.uris
      rw [List.map_cons, List.nodup_cons] at hu
      rw [List.filter_cons_of_neg (by simp)]
      exact List.filter_eq_self.mpr fun j hj => by
        simpa using fun he : j.uri = i.uri => hu.1 (he ▸ List.mem_map_of_mem hj)
    rw [hf, Out.bind, purgeList_rel hp l _ _ rfl rfl]
    have := rows_filter h (fun j => decide (j.uri ≠ i.uri))
    rw [hf] at this
    exact this

/-! ## Adding -/

theorem create_rel {U : Bytes → Prop} {taken : Bytes → Bool} {app : List Rs} (hp : Paths U taken app)
    {s : St} {t : Table} (h : Rel U app s t) {v : Bytes} (hv : U v) (hn : v ∉ t.items.map (·.uri)) {rep : Rep}
    (hc : Clean v rep) :
    Rel U app (create taken rep s).1 (add t rep) ∧
      (create taken rep s).2 = decide ((saidUri rep).isSome ∧ (saidRts rep).isSome) := by
  unfold create add
  rw [foldl_take1 rep hc]
  simp only [or_none]
  cases h1 : saidUri rep with
  | none => exact ⟨h, by simp⟩
  | some u =>
    have := saidUri_clean hc h1
    subst this
    cases h2 : saidRts rep with
    | none => exact ⟨h, by simp⟩
    | some l =>
      have hf := inUse_rel hp h.rows.allowed hv hn
      obtain ⟨_, _, _, hst⟩ := head_slash hp hv
      have hnew : newRs taken u s = rsOf (blank t.next u l) := by
        unfold newRs
        rw [h.rscs, hf, hst, h.next]
        rfl
      refine ⟨?_, by simp [hnew, rsOf]⟩
      dsimp only
      refine ⟨?_, ?_, ?_, ?_, ⟨?_, ?_, ?_, ?_⟩, ?_, ?_⟩
      · rw [List.map_append, h.recvs, h.next]; rfl
      · rw [List.map_append, h.reps, h.next]; rfl
      · rw [List.map_append, h.rscs, List.append_assoc, hnew]; rfl
      · show s.next + 1 = t.next + 1
        rw [h.next]
      · rw [List.map_append, List.nodup_append]
        refine ⟨h.rows.ids, by simp, fun a ha c hc2 => ?_⟩
        obtain ⟨i, hi, rfl⟩ := List.mem_map.mp ha
        simp only [List.map_cons, List.map_nil, List.mem_singleton] at hc2
        rw [hc2]
        exact Nat.ne_of_lt (h.below.2 i hi)
      · intro a ha i hi
        rcases List.mem_append.mp hi with hi | hi
        · exact h.rows.own a ha i hi
        · rw [List.mem_singleton] at hi
          subst hi
          exact Nat.ne_of_lt (h.below.1 a ha)
      · rw [List.map_append, List.nodup_append]
        refine ⟨h.rows.uris, by simp, fun a ha c hc2 => ?_⟩
        simp only [List.map_cons, List.map_nil, List.mem_singleton] at hc2
        rw [hc2]
        intro he
        rw [he] at ha
        exact hn ha
      · intro i hi
        rcases List.mem_append.mp hi with hi | hi
        · exact h.rows.allowed i hi
        · rw [List.mem_singleton] at hi
          subst hi
          exact hv
      · intro a ha
        exact Nat.lt_succ_of_lt (h.below.1 a ha)
      · intro i hi
        rcases List.mem_append.mp hi with hi | hi
        · exact Nat.lt_succ_of_lt (h.below.2 i hi)
        · rw [List.mem_singleton] at hi
          subst hi
          exact Nat.lt_succ_self _

theorem add_uris (t : Table) {v : Bytes} {rep : Rep} (hc : Clean v rep) :
    ∀ u, u ∈ (add t rep).items.map (·.uri) → u ∈ t.items.map (·.uri) ∨ u = v := by
  intro u hu
  unfold add at hu
  split at hu
  · rename_i w l h1 h2
    rw [List.map_append] at hu
    rcases List.mem_append.mp hu with hu | hu
    · exact Or.inl hu
    · simp only [List.map_cons, List.map_nil, List.mem_singleton] at hu
      exact Or.inr (hu.trans (saidUri_clean hc h1))
  · exact Or.inl hu

theorem createAll_rel {U : Bytes → Prop} {taken : Bytes → Bool} {app : List Rs} (hp : Paths U taken app) :
    ∀ (l : List Rep) (vs : List Bytes) (s : St) (t : Table), Rel U app s t → vs.Nodup → (∀ v, v ∈ vs → U v) →
      vs.length = l.length → (∀ v o, (v, o) ∈ vs.zip l → Clean v o) → (∀ v, v ∈ vs → v ∉ t.items.map (·.uri)) →
      Rel U app (l.foldl (fun s o => (create taken o s).1) s) (l.foldl add t)
  | [], _, s, t, h, _, _, _, _, _ => h
  | o :: l, [], s, t, h, _, _, hlen, _, _ => by cases hlen
  | o :: l, v :: vs, s, t, h, hn, hU, hlen, hc, hf => by
    rw [List.nodup_cons] at hn
    have hco := hc v o (by simp)
    refine createAll_rel hp l vs _ _ (create_rel hp h (hU v (List.mem_cons_self ..)) (hf v (List.mem_cons_self ..)) hco).1
      hn.2 (fun w hw => hU w (List.mem_cons_of_mem _ hw)) (by simpa using hlen)
      (fun w x hw => hc w x (by rw [List.zip_cons_cons]; exact List.mem_cons_of_mem _ hw)) (fun w hw hm => ?_)
    rcases add_uris t hco w hm with hm | rfl
    · exact hf w (List.mem_cons_of_mem _ hw) hm
    · exact hn.1 hw

end Verif.PushRecv
