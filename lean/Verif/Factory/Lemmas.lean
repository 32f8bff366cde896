import Verif.Factory.Names
import Verif.Acl.UpdateProps

/-! The invariant of histories. -/

namespace Verif.Factory

open Verif.Rep (Bytes b Val Rep)
open Verif.Ri (slash)
open Verif.Collection (Link Before Ordered)

/-! ### Unused numbers -/

theorem ordered_before (ls : List Link) (ho : Ordered ls) (hu : (ls.map (·.uri)).Nodup) :
    (ls.map (·.uri)).Pairwise Before := by
  induction ls with
  | nil => exact List.Pairwise.nil
  | cons l r ih =>
    unfold Ordered at ho
    rw [List.pairwise_cons] at ho
    rw [List.map_cons, List.nodup_cons] at hu
    rw [List.map_cons, List.pairwise_cons]
    refine ⟨?_, ih ho.2 hu.2⟩
    intro u hu'
    obtain ⟨x, hx, rfl⟩ := List.mem_map.1 hu'
    rcases ho.1 x hx with h | ⟨h, _⟩
    · exact h
    · exact absurd (h ▸ hu') hu.1

theorem uniqueIndex_spec (coll : Bytes) (ls : List Link) (h1 : 1 ≤ coll.length) (h2 : coll.length ≤ 61)
    (ho : Ordered ls) (hu : (ls.map (·.uri)).Nodup) (ht : ∀ l ∈ ls, Spec.Tidy coll l.uri) (hn : ls.length < 4294967294) :
    Spec.Lowest coll (ls.map (·.uri)) (uniqueIndex coll (ls.map (·.uri))) ∧
      uniqueIndex coll (ls.map (·.uri)) ≤ ls.length + 1 := by
  have hlow : ∀ m, Spec.name coll m ∈ ls.map (·.uri) → 1 ≤ m := by
    intro m hm
    obtain ⟨l, hl, e⟩ := List.mem_map.1 hm
    obtain ⟨n, hn, e'⟩ := ht l hl (dec m) e ⟨[], [], dec m, rfl, by simp, .inl rfl, dec_ne_nil m, dec_digit m⟩
    rw [dec_inj e']; exact hn
  have hs := findLoop_spec coll (ls.map (·.uri)) 1 (Nat.le_refl _) (by rw [List.length_map]; omega)
    (ordered_before ls ho hu) (fun u hu' => by obtain ⟨l, hl, rfl⟩ := List.mem_map.1 hu'; exact ht l hl) hlow
  unfold uniqueIndex
  rw [if_neg (by unfold uriSize; omega)]
  exact ⟨⟨hs.1, hs.2.2.1, hs.2.2.2⟩, by have := hs.2.1; rw [List.length_map] at this; omega⟩

theorem instanceUri_spec (coll : Bytes) (ls : List Link) (k : Nat) (hk : k ≤ 9) (h1 : 1 ≤ coll.length)
    (h2 : coll.length + k + 2 ≤ 64) (ho : Ordered ls) (hu : (ls.map (·.uri)).Nodup)
    (ht : ∀ l ∈ ls, Spec.Tidy coll l.uri) (hn : ls.length + 1 < 10 ^ k) :
    ∃ n, Spec.Lowest coll (ls.map (·.uri)) n ∧ instanceUri coll (ls.map (·.uri)) = some (Spec.name coll n) := by
  have hk1 : k ≠ 0 := by intro h; subst h; simp at hn
  have h9 : 10 ^ k ≤ 10 ^ 9 := Nat.pow_le_pow_right (by omega) hk
  have h9' : (10 : Nat) ^ 9 = 1000000000 := by decide
  obtain ⟨hl, hle⟩ := uniqueIndex_spec coll ls h1 (by omega) ho hu ht (by omega)
  refine ⟨_, hl, ?_⟩
  unfold instanceUri
  dsimp only
  have e : decInt (uniqueIndex coll (ls.map (·.uri))) = dec (uniqueIndex coll (ls.map (·.uri))) := by
    unfold decInt; rw [if_pos (by omega)]
  obtain ⟨j, rfl⟩ : ∃ j, k = j + 1 := ⟨k - 1, by omega⟩
  have hd : (dec (uniqueIndex coll (ls.map (·.uri)))).length ≤ j + 1 := dec_length (by omega)
  have := hl.1
  rw [if_neg (by omega), if_neg (by unfold uriSize; omega), e, if_neg (by unfold uriSize; omega)]
  rfl

/-! ### Deleting -/

/-- The lists of resources and links belong together. -/
structure Good (w : World) : Prop where
  ord : Ordered w.links
  lids : (w.links.map (·.id)).Nodup
  luri : (w.links.map (·.uri)).Nodup
  lres : ∀ l ∈ w.links, l.id < w.next ∧ l.seq < w.time ∧ ∃ r ∈ w.app, r.id = l.res ∧ r.uri = l.uri
  aids : (w.app.map (·.id)).Nodup
  auri : (w.app.map (·.uri)).Nodup
  alt : ∀ r ∈ w.app, r.id < w.next ∧ Spec.Path r.uri
  num : w.links.length ≤ w.time

theorem nodup_inj {α β : Type} (f : α → β) : ∀ (l : List α), (l.map f).Nodup → ∀ a ∈ l, ∀ c ∈ l, f a = f c → a = c := by
  intro l
  induction l with
  | nil => intro _ a ha; cases ha
  | cons x l ih =>
    intro h a ha c hc e
    rw [List.map_cons, List.nodup_cons] at h
    rcases List.mem_cons.1 ha with ha | ha
    · rcases List.mem_cons.1 hc with hc | hc
      · rw [ha, hc]
      · exact absurd (show f x ∈ l.map f by rw [← ha, e]; exact List.mem_map_of_mem hc) h.1
    · rcases List.mem_cons.1 hc with hc | hc
      · exact absurd (show f x ∈ l.map f by rw [← hc, ← e]; exact List.mem_map_of_mem ha) h.1
      · exact ih h.2 a ha c hc e

theorem strip_path (u : Bytes) (h : Spec.Path u) : u = 47 :: Collection.strip u := by
  obtain ⟨c, t, rfl, hc⟩ := h
  unfold Collection.strip
  rw [List.dropWhile_cons_of_pos (by decide), List.dropWhile_cons_of_neg (by simpa [slash] using hc)]

theorem strip_inj (u v : Bytes) (hu : Spec.Path u) (hv : Spec.Path v) (h : Collection.strip u = Collection.strip v) : u = v := by
  rw [strip_path u hu, strip_path v hv, h]

/-- Deleting a resource: it and its links disappear, with their parameters. -/
def gone (w : World) (r : R) : World :=
  { w with app := w.app.filter fun x => x.id != r.id
           links := w.links.filter fun l => l.res != r.id
           lparams := w.lparams.filter fun x => !(w.links.any fun l => l.res == r.id && l.id == x.1) }

theorem dropRes_gone (w : World) (g : Good w) (r : R) (hr : r ∈ w.app) : dropRes w r = gone w r := by
  unfold dropRes gone
  dsimp only
  by_cases hl : Collection.hasLink ⟨0, 0, w.links⟩ 0 r.id = true
  · rw [if_pos hl]
    simp only [Collection.hasLink, List.any_eq_true, beq_iff_eq, Bool.and_eq_true, true_and] at hl
    obtain ⟨l, hl, hres⟩ := hl
    have huri : ∀ x ∈ w.links, x.res = r.id → x.uri = r.uri := by
      intro x hx hxr
      obtain ⟨r', hr', h1, h2⟩ := (g.lres x hx).2.2
      have := nodup_inj _ _ g.aids r' hr' r hr (by rw [h1, hxr])
      rw [← h2, this]
    have hone : ∀ x ∈ w.links, x.uri = r.uri → x = l := fun x hx e =>
      nodup_inj _ _ g.luri x hx l hl (by rw [e, huri l hl hres])
    have hp := (g.alt r hr).2
    have hf : Collection.findLink w.links r.uri = some l := by
      unfold Collection.findLink
      rw [if_neg (by obtain ⟨c, t, e, _⟩ := hp; rw [e]; simp)]
      rw [List.find?_eq_some_iff_append]
      obtain ⟨a, c, e⟩ := List.append_of_mem hl
      refine ⟨by rw [huri l hl hres]; simp, a, c, e, ?_⟩
      intro x hx
      simp only [Bool.not_eq_eq_eq_not, Bool.not_true, beq_eq_false_iff_ne]
      intro hs
      have hxl : x ∈ w.links := by rw [e]; simp [hx]
      obtain ⟨r', hr', h1, h2⟩ := (g.lres x hxl).2.2
      have := strip_inj x.uri r.uri (h2 ▸ (g.alt r' hr').2) hp hs
      have hx' := hone x hxl this
      subst hx'
      have hn := g.lids
      rw [e, List.map_append, List.map_cons, List.nodup_append] at hn
      exact hn.2.2 x.id (List.mem_map_of_mem hx) x.id (by simp) rfl
    rw [hf]
    have hiff : ∀ x ∈ w.links, (x.id = l.id ↔ x.res = r.id) := by
      intro x hx
      constructor
      · intro h; rw [nodup_inj _ _ g.lids x hx l hl h]; exact hres
      · intro h; rw [hone x hx (huri x hx h)]
    have e1 : (Collection.removeLink w.links l.id).2 = w.links.filter fun x => x.res != r.id := by
      unfold Collection.removeLink
      dsimp only
      rw [Collection.eraseP_perm_filter _ _ g.lids]
      apply List.filter_congr
      intro x hx
      have := hiff x hx
      by_cases h : x.id = l.id
      · simp [h, this.1 h]
      · have h' : ¬ x.res = r.id := fun h' => h (this.2 h')
        exact (bne_iff_ne.2 h).trans (bne_iff_ne.2 h').symm
    have e2 : ∀ x : Nat × Bytes × Bytes, (x.1 != l.id) = !(w.links.any fun n => n.res == r.id && n.id == x.1) := by
      intro x
      cases hx : (w.links.any fun n => n.res == r.id && n.id == x.1) with
      | true =>
        obtain ⟨n, hn, h⟩ := List.any_eq_true.1 hx
        simp only [Bool.and_eq_true, beq_iff_eq] at h
        have := (hiff n hn).2 h.1
        simp [← h.2, this]
      | false =>
        rw [List.any_eq_false] at hx
        have := hx l hl
        simp only [Bool.and_eq_true, beq_iff_eq, not_and] at this
        have := this hres
        exact bne_iff_ne.2 fun h => this h.symm
    dsimp only
    rw [e1]
    congr 1
    exact List.filter_congr fun x _ => e2 x
  · rw [if_neg hl]
    have hno : ∀ x ∈ w.links, x.res ≠ r.id := by
      intro x hx h
      exact hl (by simp only [Collection.hasLink, List.any_eq_true, beq_iff_eq, Bool.and_eq_true, true_and]; exact ⟨x, hx, h⟩)
    have e1 : (w.links.filter fun x => x.res != r.id) = w.links := List.filter_eq_self.2 fun x hx => by simpa using hno x hx
    rw [e1]
    congr 1
    symm
    apply List.filter_eq_self.2
    intro x _
    simp only [Bool.not_eq_eq_eq_not, Bool.not_true, List.any_eq_false, Bool.and_eq_true, beq_iff_eq, not_and]
    intro n hn h
    exact absurd h (hno n hn)

theorem gone_good (w : World) (g : Good w) (r : R) : Good (gone w r) := by
  have hs := List.filter_sublist (l := w.links) (p := fun l => l.res != r.id)
  have ha := List.filter_sublist (l := w.app) (p := fun x => x.id != r.id)
  refine ⟨g.ord.sublist hs, g.lids.sublist (hs.map _), g.luri.sublist (hs.map _), ?_, g.aids.sublist (ha.map _),
    g.auri.sublist (ha.map _), fun x hx => g.alt x (ha.subset hx), Nat.le_trans hs.length_le g.num⟩
  intro l hl
  simp only [gone, List.mem_filter, bne_iff_ne] at hl
  obtain ⟨h1, h2, r', hr', h3, h4⟩ := g.lres l hl.1
  refine ⟨h1, h2, r', ?_, h3, h4⟩
  simp only [gone, List.mem_filter, bne_iff_ne]
  exact ⟨hr', fun h => hl.2 (h3 ▸ h)⟩

/-- What holds in every history. -/
structure Inv (c : Coll) (w : World) : Prop extends Good w where
  cre : ∀ r ∈ w.created, r ∈ w.app ∧ ∃ l ∈ w.links, l.res = r.id ∧ l.uri = r.uri
  crids : (w.created.map (·.id)).Nodup
  params : w.params = []
  kind : ∀ r ∈ w.app, Spec.Apart c.uri r.uri ∨ (r ∈ w.created ∧ ∃ n, 1 ≤ n ∧ r.uri = Spec.name c.uri n)
  lpar : ∀ x ∈ w.lparams, ∃ l ∈ w.links, l.id = x.1

theorem Inv.tidy {c : Coll} {w : World} (i : Inv c w) : ∀ l ∈ w.links, Spec.Tidy c.uri l.uri := by
  intro l hl s hs hn
  obtain ⟨r, hr, _, h⟩ := (i.lres l hl).2.2
  rcases i.kind r hr with hk | ⟨_, n, h1, h2⟩
  · exact absurd hn (hk s (h ▸ hs))
  · refine ⟨n, h1, ?_⟩
    have : c.uri ++ 47 :: s = c.uri ++ 47 :: dec n := by rw [← hs, ← h, h2]; rfl
    exact (List.cons.inj (List.append_cancel_left this)).2

/-- A resource and its record disappear. -/
def goneAll (w : World) (r : R) : World := { gone w r with created := w.created.filter fun x => x.id != r.id }

theorem goneAll_inv (c : Coll) (w : World) (i : Inv c w) (r : R) : Inv c (goneAll w r) := by
  have g := gone_good w i.toGood r
  refine ⟨⟨g.ord, g.lids, g.luri, g.lres, g.aids, g.auri, g.alt, g.num⟩, ?_, ?_, i.params, ?_, ?_⟩
  · intro x hx
    simp only [goneAll, List.mem_filter, bne_iff_ne] at hx
    obtain ⟨h1, l, hl, h2, h3⟩ := i.cre x hx.1
    refine ⟨?_, l, ?_, h2, h3⟩
    · simp only [goneAll, gone, List.mem_filter, bne_iff_ne]; exact ⟨h1, hx.2⟩
    · simp only [goneAll, gone, List.mem_filter, bne_iff_ne]; exact ⟨hl, fun h => hx.2 (h2 ▸ h)⟩
  · exact i.crids.sublist (List.filter_sublist.map _)
  · intro x hx
    simp only [goneAll, gone, List.mem_filter, bne_iff_ne] at hx
    rcases i.kind x hx.1 with h | ⟨h, h'⟩
    · exact .inl h
    · refine .inr ⟨?_, h'⟩
      simp only [goneAll, List.mem_filter, bne_iff_ne]; exact ⟨h, hx.2⟩
  · intro x hx
    simp only [goneAll, gone, List.mem_filter, Bool.not_eq_eq_eq_not, Bool.not_true, List.any_eq_false,
      Bool.and_eq_true, beq_iff_eq, not_and] at hx
    obtain ⟨l, hl, e⟩ := i.lpar x hx.1
    refine ⟨l, ?_, e⟩
    simp only [goneAll, gone, List.mem_filter, bne_iff_ne]
    exact ⟨hl, fun h => hx.2 l hl h e⟩

theorem freeCreated_eq (c : Coll) (w : World) (i : Inv c w) (r : R) (hr : r ∈ w.created) : freeCreated w r = goneAll w r := by
  unfold freeCreated
  rw [if_pos (List.any_eq_true.2 ⟨r, hr, by simp⟩)]
  have g : Good { w with created := w.created.filter fun x => x.id != r.id } := by
    have g := i.toGood
    exact ⟨g.ord, g.lids, g.luri, g.lres, g.aids, g.auri, g.alt, g.num⟩
  rw [dropRes_gone _ g r (i.cre r hr).1]
  rfl

theorem delete_cases (c : Coll) (w : World) (i : Inv c w) (id : Nat) :
    (delete w id = w ∧ ∀ r ∈ w.app, r.id ≠ id) ∨ ∃ r ∈ w.app, r.id = id ∧ delete w id = goneAll w r := by
  unfold delete
  cases h : w.created.find? (fun r => r.id == id) with
  | some r =>
    have hm := List.mem_of_find?_eq_some h
    have he := List.find?_some h
    exact .inr ⟨r, (i.cre r hm).1, by simpa using he, freeCreated_eq c w i r hm⟩
  | none =>
    rw [List.find?_eq_none] at h
    dsimp only
    cases h' : w.app.find? (fun r => r.id == id) with
    | none =>
      rw [List.find?_eq_none] at h'
      exact .inl ⟨rfl, fun r hr => by simpa using h' r hr⟩
    | some r =>
      have hm := List.mem_of_find?_eq_some h'
      have he : r.id = id := by simpa using List.find?_some h'
      refine .inr ⟨r, hm, he, ?_⟩
      dsimp only
      rw [dropRes_gone w i.toGood r hm]
      unfold goneAll
      have : (w.created.filter fun x => x.id != r.id) = w.created := List.filter_eq_self.2 fun x hx => by
        have := h x hx
        simpa [he] using this
      rw [this]; rfl

/-- Resetting: everything created disappears, and nothing else. -/
theorem foldl_free (c : Coll) : ∀ (rs : List R) (w : World), Inv c w → (rs.map (·.id)).Nodup → (∀ r ∈ rs, r ∈ w.created) →
    Inv c (rs.foldl freeCreated w) ∧
    (rs.foldl freeCreated w).created = w.created.filter (fun x => !rs.any fun r => r.id == x.id) ∧
    (rs.foldl freeCreated w).app = w.app.filter (fun x => !rs.any fun r => r.id == x.id) ∧
    (rs.foldl freeCreated w).links = w.links.filter (fun x => !rs.any fun r => r.id == x.res) ∧
    (rs.foldl freeCreated w).acl = w.acl ∧ (rs.foldl freeCreated w).time = w.time ∧
    (rs.foldl freeCreated w).next = w.next := by
  intro rs
  induction rs with
  | nil => intro w i _ _; refine ⟨i, ?_, ?_, ?_, rfl, rfl, rfl⟩ <;> exact (List.filter_eq_self.2 fun _ _ => rfl).symm
  | cons r rs ih =>
    intro w i hn hm
    rw [List.map_cons, List.nodup_cons] at hn
    rw [List.foldl_cons, freeCreated_eq c w i r (hm r (by simp))]
    obtain ⟨h1, h2, h3, h4, h5, h6, h7⟩ := ih (goneAll w r) (goneAll_inv c w i r) hn.2 (by
      intro x hx
      simp only [goneAll, List.mem_filter, bne_iff_ne]
      exact ⟨hm x (by simp [hx]), fun h => hn.1 (h ▸ List.mem_map_of_mem hx)⟩)
    refine ⟨h1, ?_, ?_, ?_, h5, h6, h7⟩
    · rw [h2]; simp only [goneAll, List.filter_filter]
      apply List.filter_congr; intro x _; simp only [List.any_cons, bne, Bool.not_or, Bool.and_comm, BEq.comm]
    · rw [h3]; simp only [goneAll, gone, List.filter_filter]
      apply List.filter_congr; intro x _; simp only [List.any_cons, bne, Bool.not_or, Bool.and_comm, BEq.comm]
    · rw [h4]; simp only [goneAll, gone, List.filter_filter]
      apply List.filter_congr; intro x _; simp only [List.any_cons, bne, Bool.not_or, Bool.and_comm, BEq.comm]

end Verif.Factory
