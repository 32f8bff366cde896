import Verif.Factory.Hist
import Verif.Acl.Props

/-!
C131: the names of resources created through a collection.
C132: requests to create a resource: what they need, what they do, who may use the result.
-/

namespace Verif.Factory

open Verif.Rep (Bytes b Val Rep)
open Verif.Ri (slash Iface ifaceMask)
open Verif.Collection (Link Before Ordered)
open Verif.Acl (Ace Subject Id Fresh)

/-! ### C131: names -/

/-- C131 (partial: the links have different URIs, and what can be read as a number below
the collection is a number from 1 in the usual notation; the collection's URI leaves room
for `k` digits): for a collection with any links the new URI is that of the lowest number
that no link has. -/
theorem lowest_partial (coll : Bytes) (ls : List Link) (rnd : Nat → Nat) (k : Nat) (hk : k ≤ 9) (h1 : 1 ≤ coll.length)
    (h2 : coll.length + k + 2 ≤ 64) (ho : Ordered ls) (hu : (ls.map (·.uri)).Nodup)
    (ht : ∀ l ∈ ls, Spec.Tidy coll l.uri) (hn : ls.length + 1 < 10 ^ k) :
    ∃ n, Spec.Lowest coll (ls.map (·.uri)) n ∧ newUri coll (ls.map (·.uri)) rnd = Spec.name coll n := by
  obtain ⟨n, h, e⟩ := instanceUri_spec coll ls k hk h1 h2 ho hu ht hn
  exact ⟨n, h, by unfold newUri; rw [e]⟩

/-- C131 (partial: `Fits`, `Proper`): after every history of creating and deleting, a
created resource gets the URI of the lowest number that is free in the collection, nothing
on the device uses this URI, and the resource is found under it. -/
theorem member_names_partial (c : Coll) (k : Nat) (f : Spec.Fits c k) (ops : List Op) (w : World)
    (hp : ∀ o ∈ ops, Spec.Proper c o) (hn : ops.length + 1 < 10 ^ k) (hr : run c empty ops = .ok w)
    (q : Req) (a : Answer) (w' : World) (h : create c w q = .ok (some a, w')) :
    ∃ n, Spec.Lowest c.uri (w.links.map (·.uri)) n ∧ a.href = Spec.name c.uri n ∧ inUse c w a.href = false ∧
      ∃ r ∈ w'.app, r.uri = a.href ∧ r ∈ w'.created := by
  obtain ⟨i, ht⟩ := run_inv c k f ops empty w (empty_inv c) hp (by show 0 + _ < _; omega) hr
  have ht : w.time ≤ 0 + ops.length := ht
  have := i.num
  obtain ⟨_, _, n, r, rt, l, u, pre, post, h1, h2, h3, _, h5, h6, h7, _⟩ := create_ok c k f w i (by omega) q a w' h
  exact ⟨n, h1, h3, h2, r, by rw [h6]; simp, by rw [h5], by rw [h7]; simp⟩

/-- C131 (partial: `Fits`, `Proper`): at any time the resources of the device have
different URIs, every created resource is one of them and has exactly one link in the
collection, and no link has the URI of another. -/
theorem members_partial (c : Coll) (k : Nat) (f : Spec.Fits c k) (ops : List Op) (w : World)
    (hp : ∀ o ∈ ops, Spec.Proper c o) (hn : ops.length + 1 < 10 ^ k) (hr : run c empty ops = .ok w) :
    (w.app.map (·.uri)).Nodup ∧ (w.links.map (·.uri)).Nodup ∧
    (∀ r ∈ w.created, r ∈ w.app ∧ ∃ l ∈ w.links, l.res = r.id ∧ l.uri = r.uri ∧ ∀ l' ∈ w.links, l'.res = r.id → l' = l) ∧
    (∀ l ∈ w.links, ∃ r ∈ w.app, r.id = l.res ∧ r.uri = l.uri) ∧ Ordered w.links := by
  obtain ⟨i, ht⟩ := run_inv c k f ops empty w (empty_inv c) hp (by show 0 + _ < _; omega) hr
  refine ⟨i.auri, i.luri, ?_, fun l hl => (i.lres l hl).2.2, i.ord⟩
  intro r hr
  obtain ⟨h1, l, hl, h2, h3⟩ := i.cre r hr
  refine ⟨h1, l, hl, h2, h3, ?_⟩
  intro l' hl' e
  obtain ⟨r', hr', h4, h5⟩ := (i.lres l' hl').2.2
  have := nodup_inj _ _ i.aids r' hr' r h1 (by rw [h4, e])
  exact nodup_inj _ _ i.luri l' hl' l hl (by rw [← h5, this, h3])

/-- C131 fails for a member numbered 0: the search stops at once, and the URI it gives is
that of the member 1. -/
theorem zero_false :
    instanceUri (b "/c") [b "/c/0", b "/c/1"] = some (b "/c/1") := by decide +kernel

/-- C131 fails for two links to the same resource: the search stops at the second. -/
theorem twice_false :
    instanceUri (b "/c") [b "/c/1", b "/c/1", b "/c/2"] = some (b "/c/2") := by decide +kernel

/-- C131 fails for a name that is read as a number but is not one, such as `-1` or `+7`:
these come before the members from 10. -/
theorem sign_false :
    instanceUri (b "/c") (["/c/1", "/c/2", "/c/3", "/c/4", "/c/5", "/c/6", "/c/7", "/c/8", "/c/9", "/c/+7", "/c/10"].map b) =
      some (b "/c/10") := by decide +kernel

/-- C131 fails for a collection with a long URI: the new resource has a random URI outside
the collection, which is not compared with the others. -/
theorem random_false :
    let coll := b "/" ++ List.replicate 61 97
    instanceUri coll [] = none ∧
    ∀ rnd links, newUri coll [] rnd = randomUri rnd ∧ newUri coll links rnd = randomUri rnd := by
  refine ⟨by decide +kernel, ?_⟩
  have h : ∀ links, instanceUri (b "/" ++ List.replicate 61 97) links = none := by
    intro links
    have : uniqueIndex (b "/" ++ List.replicate 61 97) links = 0 := by
      unfold uniqueIndex
      rw [if_pos (Or.inr (by decide))]
    unfold instanceUri
    rw [this]; rfl
  intro rnd links
  unfold newUri
  rw [h, h]; exact ⟨rfl, rfl⟩

/-! ### C132: requests -/

/-- C132: in every state with fresh addresses a request is carried out exactly if it is
acceptable, and a request that is refused changes nothing: no resource, no link, no
parameter and no permission remains of it. -/
theorem create_decided (c : Coll) (w : World) (y : Young w) (hw : w.params = []) (q : Req) (x : Option Answer × World)
    (h : create c w q = .ok x) :
    (x.1.isSome = true ↔ Spec.Accepted c q) ∧
    (x.1 = none → x.2.app = w.app ∧ x.2.created = w.created ∧ x.2.links = w.links ∧ x.2.lparams = w.lparams ∧
      x.2.params = w.params ∧ x.2.acl = w.acl) := by
  rcases create_cases c w y q with ⟨ha, n, _, e⟩ | ⟨ha, rt, _, e⟩
  · rw [e] at h
    simp only [Out.ok.injEq] at h
    subst h
    exact ⟨⟨fun h => (by cases h), fun h => absurd h ha⟩, fun _ => ⟨rfl, rfl, rfl, rfl, hw.symm, rfl⟩⟩
  · rw [e] at h
    unfold finish at h
    obtain ⟨_, _, h⟩ := bind_ok h
    obtain ⟨_, _, h⟩ := bind_ok h
    simp only [Out.ok.injEq] at h
    subst h
    exact ⟨⟨fun _ => ha, fun _ => rfl⟩, fun h => by cases h⟩

/-- C132: the states of a history meet the hypotheses of `create_decided`. -/
theorem history_young (c : Coll) (k : Nat) (f : Spec.Fits c k) (ops : List Op) (w : World)
    (hp : ∀ o ∈ ops, Spec.Proper c o) (hn : ops.length + 1 < 10 ^ k) (hr : run c empty ops = .ok w) :
    Young w ∧ w.params = [] := by
  obtain ⟨i, _⟩ := run_inv c k f ops empty w (empty_inv c) hp (by show 0 + _ < _; omega) hr
  exact ⟨i.young, i.params⟩

/-- A numbered URI fits, with its terminating zero, into the buffer of 64 bytes it is
written to (api/oc_resource_factory.c:139-167, 182). -/
theorem uri_fits (coll : Bytes) (links : List Bytes) (u : Bytes) (h : instanceUri coll links = some u) : u.length + 1 ≤ 64 := by
  unfold instanceUri at h
  dsimp only at h
  split at h
  · cases h
  · split at h
    · cases h
    · split at h
      · cases h
      · rename_i h3
        injection h with h
        subst h
        have : uriSize = 64 := rfl
        simp only [List.length_append, List.length_cons]
        omega

/-- The largest that fits. -/
example : (instanceUri (b "/" ++ List.replicate 60 97) []).map List.length = some 63 := by decide +kernel

/-- C132 (partial: `Fits`, `Proper`): what a request that is carried out does: exactly one
resource with the types and interfaces it asked for, one link to it with the parameters it
gave, everything else as before; the answer says so. -/
theorem created_partial (c : Coll) (k : Nat) (f : Spec.Fits c k) (ops : List Op) (w : World)
    (hp : ∀ o ∈ ops, Spec.Proper c o) (hn : ops.length + 1 < 10 ^ k) (hr : run c empty ops = .ok w)
    (q : Req) (a : Answer) (w' : World) (h : create c w q = .ok (some a, w')) :
    ∃ r l pre post, w'.app = w.app ++ [r] ∧ w'.created = w.created ++ [r] ∧ w.links = pre ++ post ∧
      w'.links = pre ++ l :: post ∧ l.res = r.id ∧ l.uri = r.uri ∧ r.uri = a.href ∧ (∀ x ∈ w.app, x.id ≠ r.id) ∧
      Spec.types q.rep = some r.types ∧ a.types = r.types ∧ a.ifaces = r.ifaces ∧
      (∀ i : Iface, r.ifaces &&& i.bit ≠ 0 ↔ Spec.Names q.rep i) ∧ (∃ p, r.bm = p ||| secureBit) ∧
      (w'.lparams.filter fun x => x.1 == l.id) = (Spec.strings q.rep).map (fun x => (l.id, x)) ∧
      (∀ n, n ≠ l.id → (w'.lparams.filter fun x => x.1 == n) = w.lparams.filter fun x => x.1 == n) ∧
      a.params = Spec.strings q.rep := by
  obtain ⟨i, ht⟩ := run_inv c k f ops empty w (empty_inv c) hp (by show 0 + _ < _; omega) hr
  have ht : w.time ≤ 0 + ops.length := ht
  have := i.num
  obtain ⟨_, _, n, r, rt, l, u, pre, post, h1, h2, h3, h4, h5, h6, h7, h8, h9, h10, h11, h12, h13, h14, _⟩ :=
    create_ok c k f w i (by omega) q a w' h
  subst h5
  refine ⟨_, l, pre, post, h6, h7, h9, h10, by rw [h8], by rw [h8], rfl, ?_, h4, h12, h13, ?_, ⟨_, rfl⟩, ?_, ?_, h14⟩
  · intro x hx e
    have := (i.alt x hx).1
    dsimp only at e; omega
  · exact (parse_spec q.rep).2.2.2.1
  · rw [h11, List.filter_append]
    have e1 : (w.lparams.filter fun x => x.1 == l.id) = [] := by
      rw [List.filter_eq_nil_iff]
      intro x hx
      obtain ⟨l', hl', e⟩ := i.lpar x hx
      have := (i.lres l' hl').1
      rw [← e, h8]
      simp only [beq_iff_eq]
      omega
    rw [e1, List.nil_append]
    apply List.filter_eq_self.2
    intro x hx
    obtain ⟨y, _, rfl⟩ := List.mem_map.1 hx
    simp
  · intro m hm
    rw [h11, List.filter_append]
    have : (((Spec.strings q.rep).map fun x => (l.id, x)).filter fun x => x.1 == m) = [] := by
      rw [List.filter_eq_nil_iff]
      intro x hx
      obtain ⟨y, _, rfl⟩ := List.mem_map.1 hx
      simpa using fun h => hm h.symm
    rw [this, List.append_nil]

/-! ### Who may use it -/

theorem updateRes_href (f : Fresh) (l : List Ace) (who : Id) (href : Bytes) (u : Acl.Upd)
    (h : Acl.updateRes f l (.uuid who) (-1) creatorPerm none (some href) .no = .ok u) :
    ∃ pre a post a', u.aces = pre ++ a' :: post ∧ (l = pre ++ a :: post ∨ (l = pre ++ post ∧ a.resources = [])) ∧
      a.permission = creatorPerm ∧ a.subject = .uuid who ∧ a'.permission = creatorPerm ∧ a'.subject = .uuid who ∧
      ((a'.resources = a.resources ∧ ∃ e ∈ a.resources, Acl.entryMatches (some href) 0 e = true) ∨
        a'.resources = a.resources ++ [⟨some href, .no⟩]) := by
  rw [Acl.updateRes] at h
  generalize hid : (if (-1 : Int) = -1 then f.id l else some (-1)) = i at h
  split at h
  · rename_i pre a post hf
    obtain ⟨rfl, ha, -⟩ := Acl.findSplit_some _ _ _ _ _ hf
    rw [Acl.selects_iff] at ha
    have hperm : a.permission = creatorPerm := ha.2.1.elim (fun h => absurd h (by decide)) id
    have hsub : a.subject = .uuid who := by
      have := ha.2.2.2
      cases hs : a.subject with
      | uuid y => rw [hs] at this; have : y = who := this; rw [this]
      | role y z => rw [hs] at this; exact absurd this id
      | conn y => rw [hs] at this; exact absurd this id
    split at h
    · cases h
    · rename_i a' cr hg
      simp only [Out.ok.injEq] at h
      subst h
      obtain ⟨hs, hres⟩ := Acl.getOrAddRes_some _ _ _ _ _ hg
      refine ⟨pre, a, post, a', rfl, .inl rfl, hperm, hsub, by rw [hs.2.2.1]; exact hperm, by rw [hs.2.1]; exact hsub, ?_⟩
      rcases hres with ⟨-, rfl, he⟩ | ⟨-, hr, -⟩
      · exact .inl ⟨rfl, he⟩
      · exact .inr hr
    · rename_i hg
      exfalso
      unfold Acl.getOrAddRes at hg
      split at hg
      · cases hg
      · rw [if_neg (by simp)] at hg
        dsimp only at hg
        split at hg <;> cases hg
  · split at h
    · cases h
    · rename_i i' _
      split at h
      · cases h
      · rename_i a' cr hg
        simp only [Out.ok.injEq] at h
        subst h
        obtain ⟨hs, hres⟩ := Acl.getOrAddRes_some _ _ _ _ _ hg
        refine ⟨l, ⟨0, .uuid who, creatorPerm, none, []⟩, [], a', rfl, .inr ⟨by simp, rfl⟩, rfl, rfl, hs.2.2.1, hs.2.1, ?_⟩
        rcases hres with ⟨-, rfl, he⟩ | ⟨-, hr, -⟩
        · exact .inl ⟨rfl, he⟩
        · exact .inr hr
      · rename_i hg
        exfalso
        unfold Acl.getOrAddRes at hg
        split at hg
        · cases hg
        · rw [if_neg (by simp)] at hg
          dsimp only at hg
          split at hg <;> cases hg

theorem entry_href (href : Bytes) (e : Acl.Entry) (hh : href.head? = some 47) (h : Acl.entryMatches (some href) 0 e = true) :
    e.href = some href := by
  cases href with
  | nil => cases hh
  | cons p s =>
    have hp47 : p = 47 := by simpa using hh
    subst hp47
    obtain ⟨o, wc⟩ := e
    cases o with
    | none => simp [Acl.entryMatches] at h
    | some t =>
      cases t with
      | nil => simp [Acl.entryMatches] at h
      | cons y z =>
        simp [Acl.entryMatches, Acl.matchUri] at h
        first | (rw [h]) | (rw [← h]) | (obtain ⟨h1, h2⟩ := h; rw [h1, h2]) | (obtain ⟨h1, h2⟩ := h; rw [← h1, ← h2])

/-- C132 (partial: no entry of the access control list names a resource and has a wildcard
too): afterwards the requester may retrieve, update and delete the new resource. -/
theorem creator_granted_partial (c : Coll) (k : Nat) (f : Spec.Fits c k) (ops : List Op) (w : World)
    (hp : ∀ o ∈ ops, Spec.Proper c o) (hn : ops.length + 1 < 10 ^ k) (hr : run c empty ops = .ok w)
    (q : Req) (a : Answer) (w' : World) (h : create c w q = .ok (some a, w'))
    (hw : ∀ x ∈ w.acl, ∀ e ∈ x.resources, e.href ≠ none → e.wc = .no)
    (r : Acl.Res) (hu : r.uri = a.href) (m : Acl.Method) (hm : m ≠ .fetch) :
    Acl.Spec.Grants w'.acl (.uuid q.client) r m := by
  obtain ⟨i, ht⟩ := run_inv c k f ops empty w (empty_inv c) hp (by show 0 + _ < _; omega) hr
  have ht : w.time ≤ 0 + ops.length := ht
  have := i.num
  obtain ⟨_, _, n, _, _, _, u, _, _, _, _, h3, _, _, _, _, _, _, _, _, _, _, _, hup, hacl⟩ :=
    create_ok c k f w i (by omega) q a w' h
  obtain ⟨pre, x, post, x', e1, e2, _, _, e4, e5, e6⟩ := updateRes_href _ _ _ _ _ hup
  have hne : a.href ≠ [] := by rw [h3]; exact path_ne_nil _ (name_path _ _ f.path)
  have hhead : a.href.head? = some 47 := by
    obtain ⟨y, t, e, _⟩ := name_path c.uri n f.path
    rw [h3, e]; rfl
  have hperm : Acl.Spec.Permits m creatorPerm := by
    cases m <;> first | exact absurd rfl hm | exact .inr (by decide) | exact .inl (by decide) | (show creatorPerm.getLsbD 3 = true; decide)
  rw [hacl, e1]
  refine ⟨x', by simp, by rw [e5]; rfl, ?_, by rw [e4]; exact hperm⟩
  have hcov : ∀ e : Acl.Entry, e.href = some a.href → e.wc = .no → Acl.Spec.Covers e r := by
    intro e h1 h2
    refine ⟨?_, fun h => absurd h2 h, .inl ⟨a.href, h1, hne⟩⟩
    rintro y ⟨h, _⟩
    rw [h1] at h; injection h with h; rw [← h, hu]
  rcases e6 with ⟨e6, e, he, hme⟩ | e6
  · have hx : x ∈ w.acl := by
      rcases e2 with e2 | ⟨_, e2⟩
      · rw [e2]; simp
      · rw [e2] at he; cases he
    have heh : e.href = some a.href := by
      exact entry_href _ _ hhead hme
    rw [e6]
    exact ⟨e, he, hcov e heh (hw x hx e he (by rw [heh]; simp))⟩
  · rw [e6]
    exact ⟨⟨some a.href, .no⟩, by simp, hcov _ rfl rfl⟩

/-- C132: nobody else gets a permission by it, and the requester none for another
resource. -/
theorem only_creator_partial (c : Coll) (k : Nat) (f : Spec.Fits c k) (ops : List Op) (w : World)
    (hp : ∀ o ∈ ops, Spec.Proper c o) (hn : ops.length + 1 < 10 ^ k) (hr : run c empty ops = .ok w)
    (q : Req) (a : Answer) (w' : World) (h : create c w q = .ok (some a, w')) (s : Subject) (r : Acl.Res) (m : Acl.Method)
    (hg : Acl.Spec.Grants w'.acl s r m) :
    Acl.Spec.Grants w.acl s r m ∨ (s = .uuid q.client ∧ r.uri = a.href ∧ m ≠ .fetch) := by
  obtain ⟨i, ht⟩ := run_inv c k f ops empty w (empty_inv c) hp (by show 0 + _ < _; omega) hr
  have ht : w.time ≤ 0 + ops.length := ht
  have := i.num
  obtain ⟨_, _, n, _, _, _, u, _, _, _, _, h3, _, _, _, _, _, _, _, _, _, _, _, hup, hacl⟩ :=
    create_ok c k f w i (by omega) q a w' h
  obtain ⟨pre, x, post, x', e1, e2, ep, es, e4, e5, e6⟩ := updateRes_href _ _ _ _ _ hup
  obtain ⟨y, hy, hs, ⟨e, he, hc⟩, hperm⟩ := hg
  rw [hacl, e1] at hy
  by_cases hyx : y = x'
  · subst hyx
    have hs' : s = .uuid q.client := by
      rw [e5] at hs
      cases s with
      | uuid z => have : q.client = z := hs; rw [this]
      | role _ _ => exact absurd hs id
      | conn _ => exact absurd hs id
    have old : e ∈ x.resources → Acl.Spec.Grants w.acl s r m := by
      intro he'
      rcases e2 with e2 | ⟨_, e2⟩
      · exact ⟨x, by rw [e2]; simp, by rw [es, hs']; rfl, ⟨e, he', hc⟩, by rw [ep, ← e4]; exact hperm⟩
      · rw [e2] at he'; cases he'
    rcases e6 with ⟨e6, _⟩ | e6
    · rw [e6] at he; exact .inl (old he)
    · rw [e6, List.mem_append, List.mem_singleton] at he
      rcases he with he | rfl
      · exact .inl (old he)
      · refine .inr ⟨hs', ?_, ?_⟩
        · have hne : a.href ≠ [] := by rw [h3]; exact path_ne_nil _ (name_path _ _ f.path)
          exact (hc.1 a.href ⟨rfl, hne⟩).symm
        · rintro rfl; exact hperm
  · refine .inl ⟨y, ?_, hs, ⟨e, he, hc⟩, hperm⟩
    simp only [List.mem_append, List.mem_cons] at hy
    rcases e2 with e2 | ⟨e2, _⟩ <;> rw [e2] <;> simp only [List.mem_append, List.mem_cons]
    · rcases hy with h | h | h
      · exact .inl h
      · exact absurd h hyx
      · exact .inr (.inr h)
    · rcases hy with h | h | h
      · exact .inl h
      · exact absurd h hyx
      · exact .inr h

/-! ### Deleting and resetting -/

/-- C132 (partial: `Fits`, `Proper`): deleting a resource removes it, its link and the link's parameters, and
nothing else; resetting the device does so for everything created. -/
theorem deleted_partial (c : Coll) (k : Nat) (f : Spec.Fits c k) (ops : List Op) (w : World)
    (hp : ∀ o ∈ ops, Spec.Proper c o) (hn : ops.length + 1 < 10 ^ k) (hr : run c empty ops = .ok w) :
    (∀ id, (∃ r ∈ w.app, r.id = id) →
      (delete w id).app = w.app.filter (fun r => r.id != id) ∧
      (delete w id).created = w.created.filter (fun r => r.id != id) ∧
      (delete w id).links = w.links.filter (fun l => l.res != id) ∧
      (∀ l ∈ w.links, l.res ≠ id → ((delete w id).lparams.filter fun x => x.1 == l.id) = w.lparams.filter fun x => x.1 == l.id) ∧
      (∀ l ∈ w.links, l.res = id → ((delete w id).lparams.filter fun x => x.1 == l.id) = [])) ∧
    (reset w).created = [] ∧ (reset w).app = w.app.filter (fun r => !w.created.contains r) ∧
    (reset w).links = w.links.filter (fun l => !w.created.any fun r => r.id == l.res) := by
  obtain ⟨i, _⟩ := run_inv c k f ops empty w (empty_inv c) hp (by show 0 + _ < _; omega) hr
  obtain ⟨_, h2, h3, h4, _⟩ := foldl_free c w.created w i i.crids (fun _ h => h)
  refine ⟨?_, ?_, ?_, h4⟩
  · rintro id ⟨r, hr, rfl⟩
    rcases delete_cases c w i r.id with ⟨_, e⟩ | ⟨r', hr', e1, e⟩
    · exact absurd rfl (e r hr)
    · have : r' = r := nodup_inj _ _ i.aids r' hr' r hr e1
      subst this
      rw [e]
      refine ⟨rfl, rfl, rfl, ?_, ?_⟩
      · intro l hl hne
        simp only [goneAll, gone, List.filter_filter]
        apply List.filter_congr
        intro x _
        by_cases hx : x.1 = l.id
        · have : (w.links.any fun n => n.res == r'.id && n.id == x.1) = false := by
            rw [List.any_eq_false]
            intro n hn
            simp only [Bool.and_eq_true, beq_iff_eq, not_and]
            intro h h'
            have := nodup_inj _ _ i.lids n hn l hl (h'.trans hx)
            exact hne (this ▸ h)
          rw [this]; simp
        · have : (x.1 == l.id) = false := by simpa using hx
          rw [this]; simp
      · intro l hl he
        simp only [goneAll, gone, List.filter_filter, List.filter_eq_nil_iff]
        intro x _
        simp only [Bool.and_eq_true, beq_iff_eq, Bool.not_eq_eq_eq_not, Bool.not_true, not_and]
        intro hx hf
        rw [List.any_eq_false] at hf
        have := hf l hl
        simp [he, hx] at this
  · show (w.created.foldl freeCreated w).created = []
    rw [h2, List.filter_eq_nil_iff]
    intro x hx
    have : (w.created.any fun r => r.id == x.id) = true := List.any_eq_true.2 ⟨x, hx, by simp⟩
    rw [this]; simp
  · show (w.created.foldl freeCreated w).app = _
    rw [h3]
    apply List.filter_congr
    intro x hx
    congr 1
    rw [Bool.eq_iff_iff, List.any_eq_true, List.contains_iff_mem]
    constructor
    · rintro ⟨r, hr, e⟩
      have := nodup_inj _ _ i.aids r (i.cre r hr).1 x hx (by simpa using e)
      exact this ▸ hr
    · intro h; exact ⟨x, h, by simp⟩

theorem filter_none (l : List Nat) : (l.filter fun _ => true) = l := List.filter_eq_self.2 fun _ _ => rfl

/-- C132 (partial: destructors delete only their own resource): freeing all created
resources frees each of them, for any number of them. -/
theorem free_all_partial (also : Nat → List Nat) : ∀ (todo : List Nat), todo.Nodup → (∀ i ∈ todo, ∀ j ∈ also i, j ∉ todo) →
    ∀ list, (∀ i ∈ todo, i ∈ list) → ∃ rest, freeLoop also list todo = .ok rest ∧ ∀ i ∈ rest, i ∈ list ∧ i ∉ todo := by
  intro todo
  induction todo with
  | nil => intro _ _ list _; exact ⟨list, rfl, fun i hi => ⟨hi, by simp⟩⟩
  | cons i t ih =>
    intro hn ha list hl
    rw [List.nodup_cons] at hn
    rw [freeLoop, if_pos (List.contains_iff_mem.2 (hl i (by simp)))]
    obtain ⟨rest, h1, h2⟩ := ih hn.2 (fun x hx j hj h => ha x (by simp [hx]) j hj (by simp [h]))
      ((list.filter fun x => x != i).filter fun x => !(also i).contains x) (by
        intro x hx
        rw [List.mem_filter, List.mem_filter]
        refine ⟨⟨hl x (by simp [hx]), by simpa using fun h : x = i => hn.1 (h ▸ hx)⟩, ?_⟩
        have : x ∉ also i := fun h => ha i (by simp) x h (by simp [hx])
        simpa using this)
    refine ⟨rest, h1, ?_⟩
    intro x hx
    obtain ⟨h3, h4⟩ := h2 x hx
    rw [List.mem_filter, List.mem_filter] at h3
    refine ⟨h3.1.1, ?_⟩
    intro h
    rcases List.mem_cons.1 h with h | h
    · have := h3.1.2; simp [h] at this
    · exact h4 h

/-- C132 fails for a destructor that deletes the next created resource too: its record is
read after it was freed. -/
theorem free_all_ub : freeLoop (fun i => if i = 1 then [2] else []) [1, 2] [1, 2] = .ub := by decide +kernel

/-! ### Factories -/

/-- C132: a type is made by the factory that was registered first for it. -/
theorem first_factory (regs : List (Bytes × Nat)) (t : Bytes) : ∀ fs : List (Bytes × Nat),
    findFactory (regs.foldl (fun fs r => addFactory fs r.1 r.2) fs) t =
      match findFactory fs t with
      | some f => some f
      | none => (regs.find? fun r => r.1 == t).map Prod.snd := by
  induction regs with
  | nil => intro fs; simp only [List.foldl_nil, List.find?_nil, Option.map_none]; cases findFactory fs t <;> rfl
  | cons r regs ih =>
    intro fs
    rw [List.foldl_cons, ih]
    have happ : ∀ x : Bytes × Nat, findFactory (fs ++ [x]) t = (findFactory fs t).or (if x.1 = t then some x.2 else none) := by
      intro x
      unfold findFactory
      rw [List.find?_append]
      cases hf : fs.find? (fun f => f.1 == t) with
      | some y => rfl
      | none =>
        simp only [Option.none_or, Option.map_none]
        by_cases hx : x.1 = t
        · simp [hx]
        · simp [hx]
    unfold addFactory
    cases hr : findFactory fs r.1 with
    | some g =>
      dsimp only
      cases ht : findFactory fs t with
      | some _ => rfl
      | none =>
        have hne : ¬ r.1 = t := fun h => by rw [h, ht] at hr; cases hr
        dsimp only
        rw [List.find?_cons_of_neg (by simpa using hne)]
    | none =>
      dsimp only
      rw [happ]
      cases ht : findFactory fs t with
      | some _ => rfl
      | none =>
        dsimp only [Option.or]
        by_cases hne : r.1 = t
        · rw [if_pos hne, List.find?_cons_of_pos (by simpa using hne)]; rfl
        · rw [if_neg hne, List.find?_cons_of_neg (by simpa using hne)]

/-! ### Examples and counterexamples -/

/-- Ids for ACEs from a random generator that counts. -/
def exFresh : Fresh := ⟨fun aces => Acl.newAceid aces [0, 2, 4, 6], fun _ _ h => ⟨_, h⟩⟩

/-- A collection of lights. -/
def exColl : Coll := ⟨b "/lights", [b "oic.r.light"], [], [(b "oic.r.light", 0)], [b "/oic/d"]⟩

/-- A request for a light. -/
def exRep : Rep := [(b "rt", .strs [b "oic.r.light"]), (b "if", .strs [b "oic.if.a"]), (b "p", .obj [(b "bm", .int 3)]),
  (b "rep", .obj [(b "on", .bool true)]), (b "title", .str (b "kitchen"))]

/-- A request of a client. -/
def exReq (client : Id) (rep : Rep) : Req := ⟨client, rep, true, true, fun _ => true, fun _ => 0, exFresh⟩

/-- Two clients. -/
def ann : Id := List.replicate 16 1
/-- Two clients. -/
def bob : Id := List.replicate 16 2

/-- The world after a history. -/
def after (c : Coll) (ops : List Op) : World :=
  match run c empty ops with
  | .ok w => w
  | .ub => empty

/-- The answer to a request. -/
def answer (c : Coll) (w : World) (q : Req) : Option Answer :=
  match create c w q with
  | .ok (a, _) => a
  | .ub => none

/-- The world after a request. -/
def next (c : Coll) (w : World) (q : Req) : World :=
  match create c w q with
  | .ok (_, w') => w'
  | .ub => w

theorem exFits : Spec.Fits exColl 9 := by
  refine ⟨⟨108, b "ights", by decide, by decide⟩, by decide, by decide, ?_⟩
  intro u hu s e
  simp only [exColl, List.mem_singleton] at hu
  subst hu
  have := congrArg (fun l : Bytes => l.take 2) e
  revert this
  simp only [exColl, b]
  intro h
  exact absurd h (by simp)

/-- Three lights, the second is deleted, its number is used again. -/
theorem example_history :
    let w := after exColl [.create (exReq ann exRep), .create (exReq ann exRep), .create (exReq bob exRep), .delete 2]
    w.links.map (·.uri) = [b "/lights/1", b "/lights/3"] ∧
    (answer exColl w (exReq bob exRep)).map (·.href) = some (b "/lights/2") ∧
    (answer exColl w (exReq bob exRep)).map (·.params) = some [(b "title", b "kitchen")] ∧
    (answer exColl w (exReq bob exRep)).map (·.bm) = some 3 := by
  decide +kernel

example : ∀ o ∈ ([.create (exReq ann exRep), .app (b "/lamp") true, .create (exReq bob exRep), .delete 2, .reset] : List Op),
    Spec.Proper exColl o := by
  intro o ho
  simp only [List.mem_cons, List.not_mem_nil, or_false] at ho
  rcases ho with rfl | rfl | rfl | rfl | rfl <;> try trivial
  refine ⟨⟨108, b "amp", by decide, by decide⟩, ?_⟩
  intro s e
  have := congrArg (fun l : Bytes => l.drop 2 |>.take 1) e
  revert this
  simp only [exColl, b]
  intro h
  exact absurd h (by simp)

example : ∃ a, answer exColl empty (exReq ann exRep) = some a ∧ a.href = Spec.name exColl.uri 1 :=
  ⟨⟨b "/lights/1", [b "oic.r.light"], Iface.a.bit, 3, [(b "title", b "kitchen")]⟩, by decide +kernel, by decide +kernel⟩

/-- C132 fails for permissions of deleted resources: the number of a deleted resource is
used again, and who created the deleted one may still retrieve, update and delete the one
that now has its URI. -/
theorem stale_grant_false :
    let w := after exColl [.create (exReq ann exRep), .delete 0, .create (exReq bob exRep)]
    w.created.map (·.uri) = [b "/lights/1"] ∧
    Acl.Spec.Grants w.acl (.uuid ann) ⟨b "/lights/1", false, false, true, true, true, false, 0⟩ .delete := by
  have hacl : (after exColl [.create (exReq ann exRep), .delete 0, .create (exReq bob exRep)]).acl =
      [⟨0, .uuid ann, 14, none, [⟨some (b "/lights/1"), .no⟩]⟩, ⟨1, .uuid bob, 14, none, [⟨some (b "/lights/1"), .no⟩]⟩] := by
    decide +kernel
  refine ⟨by decide +kernel, ?_⟩
  rw [hacl]
  refine ⟨_, List.mem_cons_self .., rfl, ⟨_, List.mem_cons_self .., ?_⟩, by show (14 : BitVec 16).getLsbD 3 = true; decide⟩
  refine ⟨?_, fun h => absurd rfl h, .inl ⟨b "/lights/1", rfl, by decide⟩⟩
  rintro h ⟨e, _⟩
  injection e with e; exact e.symm

/-- C132 fails for an access control list with an entry that has a name and a wildcard: the
entry is taken for the new one, but it covers the resource only if the wildcard does. -/
theorem wildcard_entry_false :
    let acl : List Ace := [⟨5, .uuid ann, creatorPerm, none, [⟨some (b "/lights/1"), .pub⟩]⟩]
    let w : World := { empty with acl := acl }
    (answer exColl w (exReq ann exRep)).isSome = true ∧ (next exColl w (exReq ann exRep)).acl = acl ∧
    ¬ Acl.Spec.Grants acl (.uuid ann) ⟨b "/lights/1", false, false, true, true, true, false, 0⟩ .get := by
  refine ⟨by decide +kernel, by decide +kernel, ?_⟩
  rintro ⟨a, ha, _, ⟨e, he, hc⟩, _⟩
  rw [List.mem_singleton] at ha
  subst ha
  rw [List.mem_singleton] at he
  subst he
  have := hc.2.1 (by decide) rfl
  exact absurd this.2 (by decide)

/-- C132 fails for a requester without an identity (an unsecured connection): the
permission is given to the nil UUID, which every such client has. -/
theorem anonymous_creator_false :
    (after exColl [.create (exReq Acl.nilId exRep)]).acl =
      [⟨0, .uuid Acl.nilId, 14, none, [⟨some (b "/lights/1"), .no⟩]⟩] ∧
    Acl.Anonymous Acl.anon ∧
    (Acl.checkAcl { Acl.anon with acl := [⟨0, .uuid Acl.nilId, 14, none, [⟨some (b "/lights/1"), .no⟩]⟩] }
      ⟨b "/lights/1", false, false, false, true, false, false, 0⟩ .delete).1 = true :=
  ⟨by decide +kernel, ⟨rfl, rfl, rfl⟩, by decide +kernel⟩

/-- C132 fails for other arrays of strings: the interface is taken from an array that is
not called `if`. -/
theorem other_array_false :
    (answer exColl empty (exReq ann [(b "rt", .strs [b "oic.r.light"]), (b "x", .strs [b "oic.if.rw"]),
      (b "rep", .obj [(b "on", .bool true)])])).map (·.ifaces) = some Iface.rw.bit := by decide +kernel

/-- C132 fails for further types: only the first type is compared with those the
collection supports. -/
theorem second_type_false :
    (answer exColl empty (exReq ann [(b "rt", .strs [b "oic.r.light", b "oic.r.doxm"]), (b "if", .strs [b "oic.if.rw"]),
      (b "rep", .obj [(b "on", .bool true)])])).map (·.types) = some [b "oic.r.light", b "oic.r.doxm"] := by decide +kernel

/-- C132 fails for policies in which `bm` is not the first property: it is ignored. -/
theorem policy_order_false :
    (answer exColl empty (exReq ann [(b "rt", .strs [b "oic.r.light"]), (b "if", .strs [b "oic.if.rw"]),
      (b "p", .obj [(b "x", .int 1), (b "bm", .int 3)]), (b "rep", .obj [(b "on", .bool true)])])).map (·.bm) = some 0 := by
  decide +kernel

/-- C132 fails for a second factory of a type: `oc_collections_add_rt_factory` says that
it was registered, but it is never used. -/
theorem second_factory_false :
    findFactory (addFactory (addFactory [] (b "oic.r.light") 1) (b "oic.r.light") 2) (b "oic.r.light") = some 1 := by
  decide +kernel

/-- C131 fails for an application resource outside the collection's links whose URI is that
of a free number: the created resource is not added to the device but linked, and requests
to it go to the other resource. -/
theorem elsewhere_false :
    let w := after exColl [.app (b "/lights/1") false, .create (exReq ann exRep)]
    w.app.map (fun r => (r.id, r.uri)) = [(0, b "/lights/1")] ∧ w.created.map (fun r => (r.id, r.uri)) = [(1, b "/lights/1")] ∧
    w.links.map (fun l => (l.res, l.uri)) = [(1, b "/lights/1")] := by
  decide +kernel

end Verif.Factory
