import Verif.Collection.Spec

/-!
The order of links, finding links, and deleting resources that are linked.
-/

namespace Verif.Collection

open Verif.Rep (Bytes b)
open Verif.Ri (Method Iface slash)

theorem lexLt_iff : ∀ u v : Bytes, lexLt u v = true ↔ LexLess u v := by
  intro u
  induction u with
  | nil =>
    intro v
    constructor
    · intro h; simp [lexLt] at h
    · rintro ⟨p, x, y, r, s, h1, _, _⟩; cases p <;> simp at h1
  | cons a u ih =>
    intro v
    cases v with
    | nil =>
      constructor
      · intro h; simp [lexLt] at h
      · rintro ⟨p, x, y, r, s, _, h2, _⟩; cases p <;> simp at h2
    | cons c v =>
      simp only [lexLt, Bool.or_eq_true, decide_eq_true_eq, Bool.and_eq_true, beq_iff_eq, ih v]
      constructor
      · rintro (h | ⟨rfl, p, x, y, r, s, rfl, rfl, h⟩)
        · exact ⟨[], a, c, u, v, rfl, rfl, h⟩
        · exact ⟨a :: p, x, y, r, s, rfl, rfl, h⟩
      · rintro ⟨p, x, y, r, s, h1, h2, h⟩
        cases p with
        | nil =>
          simp only [List.nil_append, List.cons.injEq] at h1 h2
          rw [h1.1, h2.1]; exact .inl h
        | cons z p =>
          simp only [List.cons_append, List.cons.injEq] at h1 h2
          exact .inr ⟨h1.1.trans h2.1.symm, p, x, y, r, s, h1.2, h2.2, h⟩

theorem lexLt_trans : ∀ u v w : Bytes, lexLt u v = true → lexLt v w = true → lexLt u w = true := by
  intro u
  induction u with
  | nil => intro v w h; simp [lexLt] at h
  | cons a u ih =>
    intro v w h1 h2
    cases v with
    | nil => simp [lexLt] at h1
    | cons c v => cases w with
      | nil => simp [lexLt] at h2
      | cons d w =>
        simp only [lexLt, Bool.or_eq_true, decide_eq_true_eq, Bool.and_eq_true, beq_iff_eq] at h1 h2 ⊢
        rcases h1 with h1 | ⟨rfl, h1⟩
        · rcases h2 with h2 | ⟨rfl, h2⟩
          · left; omega
          · left; exact h1
        · rcases h2 with h2 | ⟨rfl, h2⟩
          · left; exact h2
          · right; exact ⟨rfl, ih v w h1 h2⟩

theorem lexLt_total : ∀ u v : Bytes, u.length = v.length → lexLt u v = true ∨ u = v ∨ lexLt v u = true := by
  intro u
  induction u with
  | nil => intro v h; cases v <;> simp at h ⊢
  | cons a u ih =>
    intro v h
    cases v with
    | nil => simp at h
    | cons c v =>
      simp only [List.length_cons, Nat.add_right_cancel_iff] at h
      simp only [lexLt, Bool.or_eq_true, decide_eq_true_eq, Bool.and_eq_true, beq_iff_eq, List.cons.injEq]
      by_cases hac : a = c
      · subst hac
        rcases ih v h with h | h | h
        · exact .inl (.inr ⟨rfl, h⟩)
        · exact .inr (.inl ⟨rfl, h⟩)
        · exact .inr (.inr (.inr ⟨rfl, h⟩))
      · have : a.toNat ≠ c.toNat := fun h => hac (UInt8.toNat_inj.1 h)
        rcases Nat.lt_or_gt_of_ne this with h | h
        · exact .inl (.inl h)
        · exact .inr (.inr (.inl h))

theorem stopsAt_iff (u v : Bytes) : stopsAt u v = true ↔ v ≠ [] ∧ Before u v := by
  unfold stopsAt Before
  simp only [Bool.and_eq_true, decide_eq_true_eq, Bool.or_eq_true, beq_iff_eq, lexLt_iff]
  cases v <;> simp

theorem before_trans {u v w : Bytes} (h1 : Before u v) (h2 : Before v w) : Before u w := by
  rcases h1 with h1 | ⟨e1, h1⟩ <;> rcases h2 with h2 | ⟨e2, h2⟩
  · left; omega
  · left; omega
  · left; omega
  · right; exact ⟨by omega, (lexLt_iff _ _).1 (lexLt_trans _ _ _ ((lexLt_iff _ _).2 h1) ((lexLt_iff _ _).2 h2))⟩

theorem before_total (u v : Bytes) : Before u v ∨ u = v ∨ Before v u := by
  rcases Nat.lt_trichotomy u.length v.length with h | h | h
  · exact .inl (.inl h)
  · rcases lexLt_total u v h with k | k | k
    · exact .inl (.inr ⟨h, (lexLt_iff _ _).1 k⟩)
    · exact .inr (.inl k)
    · exact .inr (.inr (.inr ⟨h.symm, (lexLt_iff _ _).1 k⟩))
  · exact .inr (.inr (.inl h))

theorem before_irrefl (u : Bytes) : ¬ Before u u := by
  have lx : ∀ u : Bytes, lexLt u u = false := by
    intro u; induction u with
    | nil => rfl
    | cons a u ih => simp [lexLt, ih]
  rintro (h | ⟨_, h⟩)
  · omega
  · rw [← lexLt_iff, lx] at h; cases h

theorem takeWhile_all {α} {p : α → Bool} : ∀ {l : List α}, (∀ a ∈ l, p a = true) → l.takeWhile p = l := by
  intro l; induction l with
  | nil => intro _; rfl
  | cons a l ih => intro h; simp [h a (by simp), ih fun a ha => h a (by simp [ha])]

/-- A link that is not in the list. -/
theorem addLink_fresh (ls : List Link) (l : Link) (hu : l.uri ≠ []) (hf : ∀ n ∈ ls, n.id ≠ l.id) :
    addLink ls l = .ok ((ls.takeWhile fun n => !stopsAt l.uri n.uri) ++ l :: ls.dropWhile fun n => !stopsAt l.uri n.uri) := by
  have hl : ¬ l.uri.length = 0 := by cases h : l.uri <;> simp_all
  have hpost : (ls.dropWhile fun n => !stopsAt l.uri n.uri).any (fun n => n.id == l.id) = false := by
    rw [List.any_eq_false]; intro n hn
    have := hf n ((List.dropWhile_sublist _).subset hn); simpa using this
  have hpre : (ls.takeWhile fun n => !stopsAt l.uri n.uri).takeWhile (fun n => n.id != l.id) =
      ls.takeWhile fun n => !stopsAt l.uri n.uri := by
    apply takeWhile_all; intro n hn
    have := hf n ((List.takeWhile_sublist _).subset hn); simpa using this
  simp only [addLink, hl, if_false, hpost, hpre, Bool.false_eq_true]
  cases hg : (ls.takeWhile fun n => !stopsAt l.uri n.uri).getLast? with
  | none =>
    rw [List.getLast?_eq_none_iff] at hg
    have := List.takeWhile_append_dropWhile (p := fun n => !stopsAt l.uri n.uri) (l := ls)
    rw [hg, List.nil_append] at this
    simp only [hg, this, List.nil_append]
    rw [List.filter_eq_self.2]; intro n hn; simpa using hf n hn
  | some p =>
    have := hf p ((List.takeWhile_sublist _).subset (List.mem_of_getLast? hg))
    simp only [this, if_false]

theorem mem_takeWhile_imp' {α} {p : α → Bool} : ∀ {l : List α} {a}, a ∈ l.takeWhile p → p a = true := by
  intro l; induction l with
  | nil => intro a h; simp at h
  | cons c l ih =>
    intro a h; rw [List.takeWhile_cons] at h; split at h
    · rcases List.mem_cons.1 h with rfl | h
      · assumption
      · exact ih h
    · simp at h

theorem ordered_insert (ls : List Link) (l : Link) (hu : ∀ n ∈ ls, n.uri ≠ [] ∧ n.seq < l.seq) (ho : Ordered ls) :
    Ordered ((ls.takeWhile fun n => !stopsAt l.uri n.uri) ++ l :: ls.dropWhile fun n => !stopsAt l.uri n.uri) := by
  have e := List.takeWhile_append_dropWhile (p := fun n => !stopsAt l.uri n.uri) (l := ls)
  have ho' := ho; unfold Ordered at ho'; rw [← e, List.pairwise_append] at ho'
  have hpost : ∀ n ∈ ls.dropWhile (fun n => !stopsAt l.uri n.uri), Before l.uri n.uri := by
    intro n hn
    have hne := List.ne_nil_of_mem hn
    cases hd : ls.dropWhile (fun n => !stopsAt l.uri n.uri) with
    | nil => exact absurd hd hne
    | cons m r =>
      have hm : stopsAt l.uri m.uri = true := by
        have := List.head_dropWhile_not (p := fun n : Link => !stopsAt l.uri n.uri) (l := ls) hne
        simpa [hd] using this
      have hb := ((stopsAt_iff _ _).1 hm).2
      rw [hd] at hn
      rcases List.mem_cons.1 hn with rfl | hn
      · exact hb
      · have := ho'.2.1; rw [hd, List.pairwise_cons] at this
        rcases this.1 n hn with h | ⟨h, _⟩
        · exact before_trans hb h
        · rw [← h]; exact hb
  unfold Ordered
  rw [List.pairwise_append, List.pairwise_cons]
  refine ⟨ho'.1, ⟨fun n hn => .inl (hpost n hn), ho'.2.1⟩, ?_⟩
  intro n hn m hm
  have hmem : n ∈ ls := (List.takeWhile_sublist _).subset hn
  have hs : stopsAt l.uri n.uri = false := by simpa using mem_takeWhile_imp' hn
  have hn' : ¬ Before l.uri n.uri := fun h => by
    rw [(stopsAt_iff _ _).2 ⟨(hu n hmem).1, h⟩] at hs; cases hs
  rcases List.mem_cons.1 hm with rfl | hm
  · rcases before_total n.uri m.uri with h | h | h
    · exact .inl h
    · exact .inr ⟨h, (hu n hmem).2⟩
    · exact absurd h hn'
  · exact ho'.2.2 n hn m hm

theorem eraseP_perm_filter : ∀ (ls : List Link) (id : Nat), (ls.map Link.id).Nodup →
    ls.eraseP (fun n => n.id == id) = ls.filter fun n => n.id != id := by
  intro ls id; induction ls with
  | nil => intro _; rfl
  | cons a ls ih =>
    intro h
    simp only [List.map_cons, List.nodup_cons] at h
    by_cases ha : a.id = id
    · subst ha
      simp only [List.eraseP_cons, beq_self_eq_true, cond_true, List.filter_cons, bne_self_eq_false, Bool.false_eq_true,
        if_false]
      rw [List.filter_eq_self.2]
      intro n hn
      simp only [bne_iff_ne, ne_eq]
      intro e; exact h.1 (e ▸ List.mem_map_of_mem hn)
    · have : (a.id == id) = false := by simpa using ha
      simp only [List.eraseP_cons, this, cond_false, List.filter_cons, bne, Bool.not_false, if_true]
      rw [ih h.2]; rfl

theorem opRun_ordered : ∀ (ops : List Op) (n : Nat) (ls abs : List Link), ls.Perm abs → (abs.map Link.id).Nodup →
    (∀ l ∈ abs, l.uri ≠ [] ∧ l.seq < n) → Ordered ls → NoTwice n abs ops →
    ∃ r, opRun n ls ops = .ok r ∧ r.Perm (content n abs ops) ∧ Ordered r := by
  intro ops
  induction ops with
  | nil => intro n ls abs hp _ _ ho _; exact ⟨ls, rfl, hp, ho⟩
  | cons o ops ih =>
    intro n ls abs hp hd hu ho ht
    cases o with
    | add id res uri =>
      simp only [NoTwice] at ht
      simp only [opRun, opStep, content]
      by_cases he : uri = []
      · subst he
        simp only [if_true] at ht ⊢
        have : addLink ls ⟨id, res, [], n⟩ = .ok ls := by simp [addLink]
        rw [this, Out.bind]
        exact ih (n + 1) ls abs hp hd (fun l hl => ⟨(hu l hl).1, by have := (hu l hl).2; omega⟩) ho ht.2
      · simp only [he, if_false] at ht ⊢
        have hf := addLink_fresh ls ⟨id, res, uri, n⟩ he (fun m hm => ht.1 m (hp.mem_iff.1 hm))
        rw [hf, Out.bind]
        refine ih (n + 1) _ _ ?_ ?_ ?_ ?_ ht.2
        · refine List.perm_middle.trans ?_
          rw [List.takeWhile_append_dropWhile]
          exact (List.Perm.cons _ hp).trans (List.perm_append_singleton _ _).symm
        · rw [List.map_append, List.nodup_append]
          refine ⟨hd, by simp, ?_⟩
          intro a ha c hc
          simp only [List.map_cons, List.map_nil, List.mem_singleton] at hc
          obtain ⟨m, hm, rfl⟩ := List.mem_map.1 ha
          rw [hc]; exact ht.1 m hm
        · intro l hl
          rcases List.mem_append.1 hl with hl | hl
          · exact ⟨(hu l hl).1, by have := (hu l hl).2; omega⟩
          · simp only [List.mem_singleton] at hl; subst hl; exact ⟨he, by simp⟩
        · exact ordered_insert ls ⟨id, res, uri, n⟩ (fun m hm => hu m (hp.mem_iff.1 hm)) ho
    | remove id =>
      simp only [NoTwice] at ht
      simp only [opRun, opStep, content, removeLink, Out.bind]
      have hnd : (ls.map Link.id).Nodup := (hp.map Link.id).nodup_iff.2 hd
      rw [eraseP_perm_filter ls id hnd]
      refine ih (n + 1) _ _ (hp.filter _) ?_ ?_ ?_ ht
      · exact List.Sublist.nodup (List.filter_sublist.map _) hd
      · intro l hl
        have := hu l (List.mem_filter.1 hl).1
        exact ⟨this.1, by omega⟩
      · exact List.Pairwise.sublist List.filter_sublist ho

/-- However links are added and removed, as long as no link is added that is already in the
collection: the collection has exactly the links that were added and not removed, ordered
by the length of the URI, then by its value, then by when they were added. A link to a
resource without a URI is not added. -/
theorem links_ordered_partial (ops : List Op) (h : NoTwice 0 [] ops) :
    ∃ ls, opRun 0 [] ops = .ok ls ∧ ls.Perm (content 0 [] ops) ∧ Ordered ls :=
  opRun_ordered ops 0 [] [] .rfl (by simp) (by simp) List.Pairwise.nil h

/-- The order leaves no choice: two ordered lists with the same links are the same. -/
theorem order_unique : ∀ (a c : List Link), Ordered a → Ordered c → a.Perm c → a = c := by
  intro a c ha hc hp
  refine List.Perm.eq_of_pairwise (le := fun a c : Link => Before a.uri c.uri ∨ (a.uri = c.uri ∧ a.seq < c.seq)) ?_ ha hc hp
  intro x y _ _ h1 h2
  exfalso
  rcases h1 with h1 | ⟨e1, h1⟩ <;> rcases h2 with h2 | ⟨e2, h2⟩
  · exact before_irrefl _ (before_trans h1 h2)
  · rw [e2] at h1; exact before_irrefl _ h1
  · rw [e1] at h2; exact before_irrefl _ h2
  · omega

/-- Four links, one removed again. -/
example : NoTwice 0 [] [.add 1 10 (b "/lights/10"), .add 2 11 (b "/switch"), .add 3 12 (b "/lights"),
      .remove 1, .add 4 10 (b "/a")] ∧
    opRun 0 [] [.add 1 10 (b "/lights/10"), .add 2 11 (b "/switch"), .add 3 12 (b "/lights"), .remove 1,
      .add 4 10 (b "/a")] = .ok [⟨4, 10, b "/a", 4⟩, ⟨3, 12, b "/lights", 2⟩, ⟨2, 11, b "/switch", 1⟩] := by
  refine ⟨?_, by decide +kernel⟩
  simp only [NoTwice, show b "/lights/10" ≠ [] by decide +kernel, show b "/switch" ≠ [] by decide +kernel,
    show b "/lights" ≠ [] by decide +kernel, if_false]
  decide +kernel

/-- Adding a link that is already in the collection: the list of links has no end any
more, the next request to the collection does not end. -/
theorem add_twice_ub : opRun 0 [] [.add 1 10 (b "/a"), .add 1 10 (b "/a")] = .ub := by decide +kernel

/-- Adding a link that is already in the collection, with another link to the same URI
behind it: that link is lost, although it was not removed. -/
theorem add_twice_loses_false :
    ∃ ls, opRun 0 [] [.add 1 10 (b "/a"), .add 2 11 (b "/a"), .add 1 10 (b "/a")] = .ok ls ∧ ∀ l ∈ ls, l.id ≠ 2 :=
  ⟨[⟨1, 10, b "/a", 2⟩], by decide +kernel, by decide⟩

/-! ### Finding a link -/

theorem strip_spec (p : Bytes) : ∃ i, p = List.replicate i 47 ++ strip p ∧ (strip p).head? ≠ some 47 := by
  induction p with
  | nil => exact ⟨0, rfl, by decide⟩
  | cons a p ih =>
    by_cases ha : a = slash
    · obtain ⟨i, h1, h2⟩ := ih
      have hs : strip (a :: p) = strip p := by simp [strip, ha]
      refine ⟨i + 1, ?_, by rw [hs]; exact h2⟩
      rw [hs, List.replicate_succ, List.cons_append, ← h1, ha]; rfl
    · have hs : strip (a :: p) = a :: p := by simp [strip, ha]
      refine ⟨0, by rw [hs]; rfl, ?_⟩
      rw [hs]; simpa [slash] using ha

theorem strip_of (i : Nat) (t : Bytes) (h : t.head? ≠ some 47) : strip (List.replicate i 47 ++ t) = t := by
  induction i with
  | zero =>
    cases t with
    | nil => rfl
    | cons a t =>
      have : a ≠ slash := by simpa [slash] using h
      simp [strip, this]
  | succ i ih =>
    rw [List.replicate_succ, List.cons_append]
    simp only [strip, List.dropWhile_cons, slash, beq_self_eq_true, if_true]
    exact ih

theorem samePath_iff (p q : Bytes) : strip p = strip q ↔ SamePath p q := by
  constructor
  · intro h
    obtain ⟨i, h1, h2⟩ := strip_spec p
    obtain ⟨j, h3, _⟩ := strip_spec q
    exact ⟨i, j, strip p, h1, by rw [h]; exact h3, h2⟩
  · rintro ⟨i, j, t, rfl, rfl, h⟩
    rw [strip_of i t h, strip_of j t h]

/-- A link is found by the path of its resource, with or without leading slashes; the
first such link is found, and none exactly if there is none. -/
theorem find_link (ls : List Link) (path : Bytes) (hp : path ≠ []) :
    (∀ l, findLink ls path = some l ↔
      ∃ pre post, ls = pre ++ l :: post ∧ SamePath l.uri path ∧ ∀ m ∈ pre, ¬ SamePath m.uri path) ∧
    (findLink ls path = none ↔ ∀ l ∈ ls, ¬ SamePath l.uri path) := by
  have hl : ¬ path.length = 0 := by cases path <;> simp_all
  constructor
  · intro l
    simp only [findLink, hl, if_false, List.find?_eq_some_iff_append, beq_iff_eq, samePath_iff]
    constructor
    · rintro ⟨h, pre, post, e, hn⟩
      exact ⟨pre, post, e, h, fun m hm => by simpa [samePath_iff] using hn m hm⟩
    · rintro ⟨pre, post, e, h, hn⟩
      exact ⟨h, pre, post, e, fun m hm => by simpa [samePath_iff] using hn m hm⟩
  · simp only [findLink, hl, if_false, List.find?_eq_none, beq_iff_eq, samePath_iff]

/-- Found without the slash and with two. -/
example : findLink [⟨1, 10, b "/a", 0⟩, ⟨2, 11, b "/b", 1⟩] (b "b") = some ⟨2, 11, b "/b", 1⟩ ∧
    findLink [⟨1, 10, b "/a", 0⟩, ⟨2, 11, b "/b", 1⟩] (b "//a") = some ⟨1, 10, b "/a", 0⟩ ∧
    findLink [⟨1, 10, b "/a", 0⟩] (b "/c") = none := by decide +kernel

/-! ### Deleting a resource -/

theorem nodup_ids_inj : ∀ (ls : List Link), (ls.map Link.id).Nodup → ∀ m l, m ∈ ls → l ∈ ls → m.id = l.id → m = l := by
  intro ls; induction ls with
  | nil => intro _ m l h; simp at h
  | cons a ls ih =>
    intro h m l hm hl e
    simp only [List.map_cons, List.nodup_cons] at h
    rcases List.mem_cons.1 hm with hm | hm <;> rcases List.mem_cons.1 hl with hl | hl
    · rw [hm, hl]
    · rw [hm] at e; exact absurd (e ▸ List.mem_map_of_mem hl) h.1
    · rw [hl] at e; exact absurd (e ▸ List.mem_map_of_mem hm) h.1
    · exact ih h.2 m l hm hl e

/-- The links of other resources stay: deleting a resource whose path no other resource
has takes links from no other resource, and changes no collection of another device. -/
theorem delete_keeps (cs : List Coll) (dev res : Nat) (uri : Bytes)
    (hu : ∀ c ∈ cs, ∀ l ∈ c.links, SamePath l.uri uri → l.res = res)
    (hid : ∀ c ∈ cs, (c.links.map Link.id).Nodup) :
    (delRes cs dev res uri).map (fun c => (c.id, c.dev, c.links.filter fun l => l.res != res)) =
      cs.map fun c => (c.id, c.dev, c.links.filter fun l => l.res != res) := by
  unfold delRes
  rw [List.map_map]
  apply List.map_congr_left
  intro c hc
  simp only [Function.comp]
  unfold delFrom
  split
  · cases hf : findLink c.links uri with
    | none => rfl
    | some l =>
      simp only [Prod.mk.injEq, true_and]
      have hl : l ∈ c.links ∧ SamePath l.uri uri := by
        unfold findLink at hf
        split at hf
        · cases hf
        · exact ⟨List.mem_of_find?_eq_some hf, by simpa [samePath_iff] using List.find?_some hf⟩
      have hr := hu c hc l hl.1 hl.2
      rw [removeLink, eraseP_perm_filter _ _ (hid c hc), List.filter_filter]
      apply List.filter_congr
      intro m hm
      by_cases hmr : m.res = res
      · simp [hmr]
      · have : m.id ≠ l.id := by
          intro e
          have : m = l := by
            have hnd := hid c hc
            exact nodup_ids_inj c.links hnd m l hm hl.1 e
          exact hmr (this ▸ hr)
        simp [hmr, this]
  · rfl

/-- After a resource is deleted no collection has a link to it, provided that every
collection that links it belongs to its device and has just one link to its path. -/
theorem delete_unlinks_partial (cs : List Coll) (dev res : Nat) (uri : Bytes) (hne : uri ≠ [])
    (hdev : ∀ c ∈ cs, ∀ l ∈ c.links, l.res = res → c.dev = dev ∧ l.uri = uri)
    (hone : ∀ c ∈ cs, c.links.Pairwise fun l m => ¬ (SamePath l.uri uri ∧ SamePath m.uri uri))
    (hid : ∀ c ∈ cs, (c.links.map Link.id).Nodup) :
    ∀ c ∈ delRes cs dev res uri, ∀ l ∈ c.links, l.res ≠ res := by
  intro c' hc' l hl hres
  obtain ⟨c, hc, rfl⟩ := List.mem_map.1 hc'
  have hself : SamePath uri uri := (samePath_iff _ _).1 rfl
  have hsub : ∀ l ∈ (delFrom c dev res uri).links, l ∈ c.links := by
    intro l hl; unfold delFrom at hl; split at hl
    · split at hl
      · exact hl
      · exact List.eraseP_sublist.subset hl
    · exact hl
  have hlc := hsub l hl
  obtain ⟨hd, hur⟩ := hdev c hc l hlc hres
  have hh : hasLink c dev res = true := by
    simp only [hasLink, Bool.and_eq_true, beq_iff_eq, List.any_eq_true]
    exact ⟨hd, l, hlc, hres⟩
  unfold delFrom at hl
  rw [if_pos hh] at hl
  cases hf : findLink c.links uri with
  | none =>
    exact ((find_link c.links uri hne).2.1 hf) l hlc (by rw [hur]; exact hself)
  | some m =>
    rw [hf] at hl
    dsimp only at hl
    obtain ⟨pre, post, e, hm, hpre⟩ := ((find_link c.links uri hne).1 m).1 hf
    rw [removeLink, eraseP_perm_filter _ _ (hid c hc)] at hl
    have hlm := (List.mem_filter.1 hl).2
    have hne' : l ≠ m := by rintro rfl; simp at hlm
    have hp := hone c hc
    rw [e, List.pairwise_append, List.pairwise_cons] at hp
    rw [e] at hlc
    rcases List.mem_append.1 hlc with h | h
    · exact hpre l h (by rw [hur]; exact hself)
    · rcases List.mem_cons.1 h with h | h
      · exact hne' h
      · exact hp.2.1.1 l h ⟨hm, by rw [hur]; exact hself⟩

/-- Two collections, one link each. -/
example : delRes [⟨1, 0, [⟨1, 10, b "/a", 0⟩, ⟨2, 11, b "/b", 0⟩]⟩, ⟨2, 0, [⟨3, 10, b "/a", 0⟩]⟩] 0 10 (b "/a") =
    [⟨1, 0, [⟨2, 11, b "/b", 0⟩]⟩, ⟨2, 0, []⟩] := by decide +kernel

/-- A collection with two links to the same resource: only one of them is removed when the
resource is deleted, the other one leads to freed memory. -/
theorem delete_dangling_false :
    ∃ c ∈ delRes [⟨1, 0, [⟨1, 10, b "/a", 0⟩, ⟨2, 10, b "/a", 1⟩]⟩] 0 10 (b "/a"), ∃ l ∈ c.links, l.res = 10 :=
  ⟨⟨1, 0, [⟨2, 10, b "/a", 1⟩]⟩, by decide +kernel, ⟨2, 10, b "/a", 1⟩, by decide +kernel, rfl⟩

/-- A collection of another device keeps its link to a deleted resource. -/
theorem delete_other_device_false :
    ∃ c ∈ delRes [⟨1, 1, [⟨1, 10, b "/a", 0⟩]⟩] 0 10 (b "/a"), ∃ l ∈ c.links, l.res = 10 :=
  ⟨⟨1, 1, [⟨1, 10, b "/a", 0⟩]⟩, by decide +kernel, ⟨1, 10, b "/a", 0⟩, by decide +kernel, rfl⟩

/-- Deleting a resource can take the link of another resource with the same path (of
another device) from a collection that links both, and leave the link to the deleted
resource. -/
theorem delete_wrong_link_false :
    delRes [⟨1, 0, [⟨1, 20, b "/a", 0⟩, ⟨2, 10, b "/a", 1⟩]⟩] 0 10 (b "/a") =
      [⟨1, 0, [⟨2, 10, b "/a", 1⟩]⟩] := by decide +kernel

/-- Deleting a collection leaves the links of other collections to it: they lead to freed
memory. -/
theorem free_collection_dangling_false :
    ∃ c ∈ freeColl [⟨1, 0, [⟨1, 2, b "/c", 0⟩]⟩, ⟨2, 0, []⟩] 2, ∃ l ∈ c.links, l.res = 2 :=
  ⟨⟨1, 0, [⟨1, 2, b "/c", 0⟩]⟩, by decide +kernel, ⟨1, 2, b "/c", 0⟩, by decide +kernel, rfl⟩

end Verif.Collection
