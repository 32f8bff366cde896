import Verif.Factory.Create

/-! Histories keep the invariant. -/

namespace Verif.Factory

open Verif.Rep (Bytes b Val Rep)
open Verif.Ri (slash Iface ifaceMask)
open Verif.Collection (Link Before Ordered)

theorem bind_ok {α β : Type} {x : Out α} {f : α → Out β} {y : β} (h : x.bind f = .ok y) :
    ∃ a, x = .ok a ∧ f a = .ok y := by
  cases x with
  | ok a => exact ⟨a, rfl, h⟩
  | ub => cases h

theorem name_like (n : Nat) : Spec.NumberLike (dec n) :=
  ⟨[], [], dec n, rfl, by simp, .inl rfl, dec_ne_nil n, dec_digit n⟩

theorem apart_name (coll : Bytes) (n : Nat) (u : Bytes) (h : Spec.Apart coll u) : u ≠ Spec.name coll n :=
  fun e => h (dec n) e (name_like n)

theorem name_path (coll : Bytes) (n : Nat) (h : Spec.Path coll) : Spec.Path (Spec.name coll n) := by
  obtain ⟨c, t, rfl, hc⟩ := h
  exact ⟨c, t ++ 47 :: dec n, by simp [Spec.name], hc⟩

theorem path_ne_nil (u : Bytes) (h : Spec.Path u) : u ≠ [] := by
  obtain ⟨c, t, rfl, _⟩ := h; simp

/-- The URI of an unused number is not in use at all. -/
theorem name_unused (c : Coll) (k : Nat) (f : Spec.Fits c k) (w : World) (i : Inv c w) (n : Nat)
    (h : Spec.name c.uri n ∉ w.links.map (·.uri)) : inUse c w (Spec.name c.uri n) = false := by
  have h1 : (c.uri == Spec.name c.uri n) = false := by
    rw [beq_eq_false_iff_ne]
    intro e
    have := congrArg List.length e
    simp [Spec.name] at this
  have h2 : c.others.contains (Spec.name c.uri n) = false := by
    cases hc : c.others.contains (Spec.name c.uri n) with
    | false => rfl
    | true => exact absurd rfl (apart_name c.uri n _ (f.others _ (List.contains_iff_mem.1 hc)))
  have h3 : (w.app.any fun r => r.uri == Spec.name c.uri n) = false := by
    rw [List.any_eq_false]
    intro r hr he
    have he : r.uri = Spec.name c.uri n := by simpa using he
    rcases i.kind r hr with hk | ⟨hc, _⟩
    · exact apart_name c.uri n _ hk he
    · obtain ⟨l, hl, _, hu⟩ := (i.cre r hc).2
      exact h (List.mem_map.2 ⟨l, hl, hu.trans he⟩)
  unfold inUse
  rw [h1, h2, h3]; rfl

/-- Adding a resource and its link. -/
theorem add_good (w : World) (g : Good w) (r : R) (hid : r.id = w.next) (hp : Spec.Path r.uri)
    (hu : ∀ x ∈ w.app, x.uri ≠ r.uri) (ls : List Link)
    (hl : Collection.addLink w.links ⟨w.next + 1, r.id, r.uri, w.time⟩ = .ok ls) :
    (∃ pre post, w.links = pre ++ post ∧ ls = pre ++ ⟨w.next + 1, r.id, r.uri, w.time⟩ :: post) ∧
    ∀ w' : World, w'.app = w.app ++ [r] → w'.links = ls → w'.next = w.next + 2 → w'.time = w.time + 1 → Good w' := by
  have hf := Collection.addLink_fresh w.links ⟨w.next + 1, r.id, r.uri, w.time⟩ (path_ne_nil _ hp)
    (fun n hn => by have := (g.lres n hn).1; dsimp only; omega)
  rw [hf] at hl
  injection hl with hl
  have hne : ∀ n ∈ w.links, n.uri ≠ [] ∧ n.seq < w.time := by
    intro n hn
    obtain ⟨_, h2, r', hr', _, e⟩ := g.lres n hn
    exact ⟨e ▸ path_ne_nil _ (g.alt r' hr').2, h2⟩
  have ho := Collection.ordered_insert w.links ⟨w.next + 1, r.id, r.uri, w.time⟩ hne g.ord
  have hsplit := List.takeWhile_append_dropWhile (p := fun n : Link => !Collection.stopsAt r.uri n.uri) (l := w.links)
  refine ⟨⟨_, _, hsplit.symm, hl.symm⟩, ?_⟩
  intro w' ea el en et
  rw [hl] at ho
  have hperm : ls.Perm (⟨w.next + 1, r.id, r.uri, w.time⟩ :: w.links) := by
    rw [← hl]
    refine List.perm_middle.trans (List.Perm.cons _ ?_)
    rw [hsplit]
  have hmem : ∀ n, n ∈ ls ↔ n = ⟨w.next + 1, r.id, r.uri, w.time⟩ ∨ n ∈ w.links := fun n => by
    rw [hperm.mem_iff, List.mem_cons]
  refine ⟨el ▸ ho, ?_, ?_, ?_, ?_, ?_, ?_, ?_⟩
  · rw [el]
    refine ((hperm.map _).nodup_iff).2 ?_
    rw [List.map_cons, List.nodup_cons]
    refine ⟨?_, g.lids⟩
    intro h
    obtain ⟨n, hn, e⟩ := List.mem_map.1 h
    have := (g.lres n hn).1
    dsimp only at e; omega
  · rw [el]
    refine ((hperm.map _).nodup_iff).2 ?_
    rw [List.map_cons, List.nodup_cons]
    refine ⟨?_, g.luri⟩
    intro h
    obtain ⟨n, hn, e⟩ := List.mem_map.1 h
    obtain ⟨_, _, r', hr', _, e'⟩ := g.lres n hn
    exact hu r' hr' (e'.trans e)
  · intro n hn
    rw [el, hmem] at hn
    rw [en, et, ea]
    rcases hn with rfl | hn
    · exact ⟨by dsimp only; omega, by dsimp only; omega, r, by simp, rfl, rfl⟩
    · obtain ⟨h1, h2, r', hr', h3⟩ := g.lres n hn
      exact ⟨by omega, by omega, r', by simp [hr'], h3⟩
  · rw [ea, List.map_append, List.nodup_append]
    refine ⟨g.aids, by simp, ?_⟩
    intro a ha c hc e
    obtain ⟨x, hx, rfl⟩ := List.mem_map.1 ha
    have := (g.alt x hx).1
    simp only [List.map_cons, List.map_nil, List.mem_singleton] at hc
    omega
  · rw [ea, List.map_append, List.nodup_append]
    refine ⟨g.auri, by simp, ?_⟩
    intro a ha c hc e
    obtain ⟨x, hx, rfl⟩ := List.mem_map.1 ha
    simp only [List.map_cons, List.map_nil, List.mem_singleton] at hc
    exact hu x hx (e.trans hc)
  · intro x hx
    rw [ea, List.mem_append, List.mem_singleton] at hx
    rw [en]
    rcases hx with hx | rfl
    · have := g.alt x hx; exact ⟨by omega, this.2⟩
    · exact ⟨by omega, hp⟩
  · rw [el, et, hperm.length_eq, List.length_cons]
    have := g.num; omega

theorem not_inUse_app (c : Coll) (w : World) (u : Bytes) (h : inUse c w u = false) : ∀ x ∈ w.app, x.uri ≠ u := by
  intro x hx e
  unfold inUse at h
  rw [Bool.or_eq_false_iff, List.any_eq_false] at h
  exact h.2 x hx (by simp [e])

/-- A request that is carried out. -/
theorem create_ok (c : Coll) (k : Nat) (f : Spec.Fits c k) (w : World) (i : Inv c w) (hn : w.links.length + 1 < 10 ^ k)
    (q : Req) (a : Answer) (w' : World) (h : create c w q = .ok (some a, w')) :
    Inv c w' ∧ w'.time = w.time + 1 ∧
    ∃ n r rt l u pre post, Spec.Lowest c.uri (w.links.map (·.uri)) n ∧ inUse c w a.href = false ∧
      a.href = Spec.name c.uri n ∧ Spec.types q.rep = some rt ∧
      r = ⟨w.next, a.href, rt, (parse q.rep).bm ||| secureBit, (parse q.rep).ifaces⟩ ∧
      w'.app = w.app ++ [r] ∧ w'.created = w.created ++ [r] ∧
      l = ⟨w.next + 1, w.next, a.href, w.time⟩ ∧ w.links = pre ++ post ∧ w'.links = pre ++ l :: post ∧
      w'.lparams = w.lparams ++ (Spec.strings q.rep).map (fun x => (l.id, x)) ∧
      a.types = rt ∧ a.ifaces = (parse q.rep).ifaces ∧ a.params = Spec.strings q.rep ∧
      Acl.updateRes q.fresh w.acl (.uuid q.client) (-1) creatorPerm none (some a.href) .no = .ok u ∧ w'.acl = u.aces := by
  rcases create_cases c w i.young q with ⟨_, n, _, e⟩ | ⟨_, rt, ht, e⟩
  · rw [e] at h; cases h
  · rw [e] at h
    have hlen : 1 ≤ c.uri.length := by obtain ⟨x, t, e, _⟩ := f.path; rw [e]; simp
    obtain ⟨n, hlow, hinst⟩ := instanceUri_spec c.uri w.links k f.digits hlen f.room i.ord i.luri i.tidy hn
    have hnu : newUri c.uri (w.links.map (·.uri)) q.rnd = Spec.name c.uri n := by unfold newUri; rw [hinst]
    have huse := name_unused c k f w i n hlow.2.1
    have hr : newRes c { w with params := w.params ++ (parse q.rep).params } q (parse q.rep) rt =
        ⟨w.next, Spec.name c.uri n, rt, (parse q.rep).bm ||| secureBit, (parse q.rep).ifaces⟩ := by
      unfold newRes; dsimp only; rw [hnu]
    obtain ⟨_, _, p3, _, _⟩ := parse_spec q.rep
    have hm : made c w q rt = { w with
        app := w.app ++ [⟨w.next, Spec.name c.uri n, rt, (parse q.rep).bm ||| secureBit, (parse q.rep).ifaces⟩]
        created := w.created ++ [⟨w.next, Spec.name c.uri n, rt, (parse q.rep).bm ||| secureBit, (parse q.rep).ifaces⟩]
        params := Spec.strings q.rep, next := w.next + 1 } := by
      unfold made
      dsimp only
      rw [hr]
      have : inUse c { w with params := w.params ++ (parse q.rep).params } (Spec.name c.uri n) = false := huse
      unfold getInstance
      dsimp only
      rw [this, p3, i.params]; rfl
    rw [hr, hm] at h
    unfold finish at h
    dsimp only at h
    obtain ⟨ls, hls, h⟩ := bind_ok h
    obtain ⟨u, hup, h⟩ := bind_ok h
    simp only [Out.ok.injEq, Prod.mk.injEq, Option.some.injEq] at h
    obtain ⟨ha, hw⟩ := h
    subst ha
    dsimp only at *
    obtain ⟨⟨pre, post, e1, e2⟩, hg⟩ := add_good w i.toGood
      ⟨w.next, Spec.name c.uri n, rt, (parse q.rep).bm ||| secureBit, (parse q.rep).ifaces⟩ rfl
      (name_path _ _ f.path) (not_inUse_app c w _ huse) ls hls
    have hgw := hg w' (by rw [← hw]) (by rw [← hw]) (by rw [← hw]) (by rw [← hw])
    have hlm : ∀ x ∈ w.links, x ∈ ls := by
      intro x hx
      rw [e1] at hx
      rw [e2]
      simp only [List.mem_append, List.mem_cons] at hx ⊢
      rcases hx with h | h
      · exact .inl h
      · exact .inr (.inr h)
    refine ⟨⟨hgw, ?_, ?_, by rw [← hw], ?_, ?_⟩, by rw [← hw], ?_⟩
    · intro x hx
      rw [← hw] at hx ⊢
      dsimp only at hx ⊢
      rw [List.mem_append, List.mem_singleton] at hx
      rcases hx with hx | rfl
      · obtain ⟨h1, l, hl, h2⟩ := i.cre x hx
        exact ⟨by simp [h1], l, hlm l hl, h2⟩
      · exact ⟨by simp, ⟨w.next + 1, w.next, Spec.name c.uri n, w.time⟩, by rw [e2]; simp, rfl, rfl⟩
    · rw [← hw]
      dsimp only
      rw [List.map_append, List.nodup_append]
      refine ⟨i.crids, by simp, ?_⟩
      intro x hx y hy e
      obtain ⟨r, hr, rfl⟩ := List.mem_map.1 hx
      have := (i.alt r (i.cre r hr).1).1
      simp only [List.map_cons, List.map_nil, List.mem_singleton] at hy
      omega
    · intro x hx
      rw [← hw] at hx ⊢
      dsimp only at hx ⊢
      rw [List.mem_append, List.mem_singleton] at hx
      rcases hx with hx | rfl
      · rcases i.kind x hx with h | ⟨h, h'⟩
        · exact .inl h
        · exact .inr ⟨by simp [h], h'⟩
      · exact .inr ⟨by simp, n, hlow.1, rfl⟩
    · intro x hx
      rw [← hw] at hx ⊢
      dsimp only at hx ⊢
      rcases List.mem_append.1 hx with hx | hx
      · obtain ⟨l, hl, e⟩ := i.lpar x hx; exact ⟨l, hlm l hl, e⟩
      · obtain ⟨y, _, rfl⟩ := List.mem_map.1 hx
        exact ⟨⟨w.next + 1, w.next, Spec.name c.uri n, w.time⟩, by rw [e2]; simp, rfl⟩
    · refine ⟨n, _, rt, _, u, pre, post, hlow, huse, rfl, ht, rfl, by rw [← hw], by rw [← hw], rfl, e1,
        by rw [← hw]; exact e2, by rw [← hw], rfl, rfl, rfl, hup, by rw [← hw]⟩

/-- One operation. -/
theorem step_inv (c : Coll) (k : Nat) (f : Spec.Fits c k) (w w' : World) (i : Inv c w) (hn : w.links.length + 1 < 10 ^ k)
    (o : Op) (ho : Spec.Proper c o) (h : step c w o = .ok w') : Inv c w' ∧ w'.time ≤ w.time + 1 := by
  cases o with
  | create q =>
    obtain ⟨⟨a, w2⟩, hx, he⟩ := bind_ok h
    simp only [Out.ok.injEq] at he
    subst he
    cases a with
    | some a =>
      have := create_ok c k f w i hn q a w2 hx
      exact ⟨this.1, by rw [this.2.1]; exact Nat.le_refl _⟩
    | none =>
      rcases create_cases c w i.young q with ⟨_, n, hle, e⟩ | ⟨_, rt, _, e⟩
      · rw [e] at hx
        simp only [Out.ok.injEq, Prod.mk.injEq, true_and] at hx
        subst hx
        refine ⟨⟨⟨i.ord, i.lids, i.luri, ?_, i.aids, i.auri, ?_, i.num⟩, i.cre, i.crids, rfl, i.kind, i.lpar⟩, by dsimp only; omega⟩
        · intro l hl
          obtain ⟨h1, h2⟩ := i.lres l hl
          exact ⟨Nat.lt_of_lt_of_le h1 hle, h2⟩
        · intro r hr
          have := i.alt r hr
          exact ⟨Nat.lt_of_lt_of_le this.1 hle, this.2⟩
      · rw [e] at hx
        unfold finish at hx
        obtain ⟨_, _, hx⟩ := bind_ok hx
        obtain ⟨_, _, hx⟩ := bind_ok hx
        cases hx
  | delete id =>
    simp only [step, Out.ok.injEq] at h
    rcases delete_cases c w i id with ⟨e, _⟩ | ⟨r, _, _, e⟩
    · rw [e] at h; subst h; exact ⟨i, by omega⟩
    · rw [e] at h; subst h; exact ⟨goneAll_inv c w i r, Nat.le_succ _⟩
  | reset =>
    simp only [step, Out.ok.injEq] at h
    obtain ⟨h1, _, _, _, _, h6, _⟩ := foldl_free c w.created w i i.crids (fun _ h => h)
    subst h
    refine ⟨h1, ?_⟩
    show (w.created.foldl freeCreated w).time ≤ _
    rw [h6]; omega
  | app uri linked =>
    unfold step addApp at h
    dsimp only at h
    by_cases hu : inUse c w uri = true
    · rw [if_pos hu] at h; simp only [Out.ok.injEq] at h; subst h; exact ⟨i, by omega⟩
    · rw [if_neg hu] at h
      rw [Bool.not_eq_true] at hu
      have hg : getInstance c w ⟨w.next, uri, [], 0, 0⟩ =
          { w with app := w.app ++ [⟨w.next, uri, [], 0, 0⟩], next := w.next + 1 } := by
        unfold getInstance; dsimp only; rw [hu]; rfl
      rw [hg] at h
      have hun := not_inUse_app c w uri hu
      have hkind : ∀ x ∈ w.app ++ [(⟨w.next, uri, [], 0, 0⟩ : R)],
          Spec.Apart c.uri x.uri ∨ (x ∈ w.created ∧ ∃ n, 1 ≤ n ∧ x.uri = Spec.name c.uri n) := by
        intro x hx
        rw [List.mem_append, List.mem_singleton] at hx
        rcases hx with hx | rfl
        · exact i.kind x hx
        · exact .inl ho.2
      by_cases hl : linked = true
      · rw [if_pos hl] at h
        obtain ⟨ls, hls, h⟩ := bind_ok h
        simp only [Out.ok.injEq] at h
        obtain ⟨⟨pre, post, e1, e2⟩, hgd⟩ := add_good w i.toGood ⟨w.next, uri, [], 0, 0⟩ rfl ho.1 hun ls hls
        have hlm : ∀ x ∈ w.links, x ∈ ls := by
          intro x hx
          rw [e1] at hx
          rw [e2]
          simp only [List.mem_append, List.mem_cons] at hx ⊢
          rcases hx with h | h
          · exact .inl h
          · exact .inr (.inr h)
        have hgw := hgd w' (by rw [← h]) (by rw [← h]) (by rw [← h]) (by rw [← h])
        refine ⟨⟨hgw, ?_, by rw [← h]; exact i.crids, by rw [← h]; exact i.params, by rw [← h]; exact hkind, ?_⟩, by rw [← h]; exact Nat.le_refl _⟩
        · intro x hx
          rw [← h] at hx ⊢
          obtain ⟨h1, l, hl, h2⟩ := i.cre x hx
          exact ⟨by simp [h1], l, hlm l hl, h2⟩
        · intro x hx
          rw [← h] at hx ⊢
          obtain ⟨l, hl, e⟩ := i.lpar x hx
          exact ⟨l, hlm l hl, e⟩
      · rw [if_neg hl] at h
        simp only [Out.ok.injEq] at h
        subst h
        refine ⟨⟨⟨i.ord, i.lids, i.luri, ?_, ?_, ?_, ?_, i.num⟩, ?_, i.crids, i.params, hkind, i.lpar⟩, Nat.le_succ _⟩
        · intro l hl
          obtain ⟨h1, h2, r', hr', h3⟩ := i.lres l hl
          exact ⟨Nat.lt_succ_of_lt h1, h2, r', by simp [hr'], h3⟩
        · rw [List.map_append, List.nodup_append]
          refine ⟨i.aids, by simp, ?_⟩
          intro a ha d hd e
          obtain ⟨x, hx, rfl⟩ := List.mem_map.1 ha
          have := (i.alt x hx).1
          simp only [List.map_cons, List.map_nil, List.mem_singleton] at hd
          omega
        · rw [List.map_append, List.nodup_append]
          refine ⟨i.auri, by simp, ?_⟩
          intro a ha d hd e
          obtain ⟨x, hx, rfl⟩ := List.mem_map.1 ha
          simp only [List.map_cons, List.map_nil, List.mem_singleton] at hd
          exact hun x hx (e.trans hd)
        · intro x hx
          rw [List.mem_append, List.mem_singleton] at hx
          rcases hx with hx | rfl
          · have := i.alt x hx; exact ⟨Nat.lt_succ_of_lt this.1, this.2⟩
          · exact ⟨Nat.lt_succ_self _, ho.1⟩
        · intro x hx
          obtain ⟨h1, h2⟩ := i.cre x hx
          exact ⟨by simp [h1], h2⟩

theorem empty_inv (c : Coll) : Inv c empty := by
  refine ⟨⟨List.Pairwise.nil, List.nodup_nil, List.nodup_nil, ?_, List.nodup_nil, List.nodup_nil, ?_, Nat.le_refl _⟩,
    ?_, List.nodup_nil, rfl, ?_, ?_⟩ <;> intro x hx <;> cases hx

theorem run_inv (c : Coll) (k : Nat) (f : Spec.Fits c k) : ∀ (ops : List Op) (w w' : World), Inv c w →
    (∀ o ∈ ops, Spec.Proper c o) → w.time + ops.length < 10 ^ k → run c w ops = .ok w' →
    Inv c w' ∧ w'.time ≤ w.time + ops.length := by
  intro ops
  induction ops with
  | nil => intro w w' i _ _ h; simp only [run, Out.ok.injEq] at h; subst h; exact ⟨i, Nat.le_refl _⟩
  | cons o os ih =>
    intro w w' i hp hn h
    rw [run] at h
    obtain ⟨w1, h1, h⟩ := bind_ok h
    simp only [List.length_cons] at hn ⊢
    have hl := i.num
    obtain ⟨i1, ht⟩ := step_inv c k f w w1 i (by omega) o (hp o (by simp)) h1
    obtain ⟨i2, ht2⟩ := ih w1 w' i1 (fun o ho => hp o (by simp [ho])) (by omega) h
    exact ⟨i2, by omega⟩

end Verif.Factory
