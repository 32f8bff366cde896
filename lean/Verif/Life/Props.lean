import Verif.Life.Steps

/-!
C143: deleting a resource or a collection leaves nothing behind that uses it.
-/

namespace Verif.Life

/-- A collection with a link to a resource; a client watches the links, another one the
resource, and the resource is to be deleted.  Used by the examples. -/
def demo : List Op :=
  [.new 0 true 0 1, .new 1 false 0 2, .add 0, .add 1, .link 0 1, .observe 7 .ll 0, .observe 8 .dflt 1, .observe 9 .base 1,
   .changedLater 1, .fire 0]

theorem demo_reach : ∃ s, run init demo = .ok s ∧ Reach s ∧ s.heap 1 = some ⟨1, false, 0, 2⟩ ∧ s.heap 0 = some ⟨0, true, 0, 1⟩ ∧
    s.links 0 = [1] ∧ s.obs.length = 3 ∧ s.cbs = [⟨.changed, 1⟩, ⟨.base, 0⟩] ∧ s.app = [1] ∧ s.out = [.note 0 7 0 0] := by
  have r1 := Reach.step (op := .new 0 true 0 1) .init trivial trivial rfl
  have r2 := Reach.step (op := .new 1 false 0 2) r1 trivial trivial rfl
  have r3 := Reach.step (op := .add 0) r2 ⟨_, rfl⟩ trivial rfl
  have r4 := Reach.step (op := .add 1) r3 ⟨_, rfl⟩ trivial rfl
  have r5 := Reach.step (op := .link 0 1) r4 ⟨⟨_, rfl, rfl⟩, _, rfl⟩ ⟨.head _, .inl (.head _), List.not_mem_nil, rfl⟩ rfl
  have r6 := Reach.step (op := .observe 7 .ll 0) r5 trivial (by show 0 < 255; omega) rfl
  have r7 := Reach.step (op := .observe 8 .dflt 1) r6 trivial (by show 0 < 255; omega) rfl
  have r8 := Reach.step (op := .observe 9 .base 1) r7 trivial (by show 1 < 255; omega) rfl
  have r9 := Reach.step (op := .changedLater 1) r8 ⟨_, rfl⟩ trivial rfl
  have r10 := Reach.step (op := .fire 0) r9 trivial trivial rfl
  exact ⟨_, rfl, r10, rfl, rfl, rfl, rfl, rfl, rfl, rfl⟩

/-- Whatever an application that passes memory it has not freed and minds the rest does,
whatever clients do and however delayed callbacks fall in between: no step reads or
writes memory that was freed.  Partial: what has to be minded is not asked for anywhere,
and the theorems at the end show that it does have to be minded. -/
theorem defined_partial {s : St} (r : Reach s) {op : Op} (w : Own s op) (m : Minded s op) : ∃ s', step s op = .ok s' :=
  let ⟨s', e, _⟩ := step_ok (reach_inv r) w m
  ⟨s', e⟩

example : ∃ s, Reach s ∧ Own s (.delete 1) ∧ Minded s (.delete 1) ∧ ∃ s', step s (.delete 1) = .ok s' := by
  obtain ⟨s, -, r, h, -⟩ := demo_reach
  exact ⟨s, r, ⟨_, h, rfl⟩, trivial, defined_partial r ⟨_, h, rfl⟩ trivial⟩

/-- At any time each observer has the very resource it registered for, and each delayed
callback, link and list entry one that was not freed. -/
theorem sound {s : St} (r : Reach s) : Sound s := (reach_inv r).sound

example : ∃ s, Reach s ∧ s.obs.length = 3 ∧ s.cbs.length = 2 ∧ Sound s := by
  obtain ⟨s, -, r, -, -, -, h, h', -⟩ := demo_reach
  exact ⟨s, r, h, by rw [h']; rfl, sound r⟩

/-- Nobody is ever sent a notification of another resource than the one it registered
for, however addresses are reused. -/
theorem truthful_partial {s : St} (r : Reach s) : Truthful s.out := (reach_inv r).tru

example : ∃ s, Reach s ∧ s.out = [.note 0 7 0 0] ∧ Truthful s.out := by
  obtain ⟨s, -, r, -, -, -, -, -, -, h⟩ := demo_reach
  exact ⟨s, r, h, truthful_partial r⟩

/-- A device has no two resources or collections with the same URI on its lists. -/
theorem one_uri {s : St} (r : Reach s) {a b : Nat} {x y : Obj} (la : Listed s a) (lb : Listed s b) (ea : s.heap a = some x)
    (eb : s.heap b = some y) (hd : x.dev = y.dev) (hu : x.uri = y.uri) : a = b := (reach_inv r).uniq a b x y la lb ea eb hd hu

example : ∃ s, Reach s ∧ Listed s 1 ∧ s.heap 1 = some ⟨1, false, 0, 2⟩ ∧ ∀ b y, Listed s b → s.heap b = some y → y.dev = 0 → y.uri = 2 → b = 1 := by
  obtain ⟨s, -, r, h, -, -, -, -, ha, -⟩ := demo_reach
  have l : Listed s 1 := .inl (by rw [ha]; exact .head _)
  exact ⟨s, r, l, h, fun b y lb eb hd hu => one_uri r lb l eb h hd hu⟩

/-- A resource knows how many observers it has. -/
theorem counted {s : St} (r : Reach s) {a : Nat} {x : Obj} (e : s.heap a = some x) :
    s.nobs a = (s.obs.filter fun o => o.res == a).length := (reach_inv r).cnt a x e

example : ∃ s, Reach s ∧ s.nobs 1 = 2 := by
  obtain ⟨s, h, r, -⟩ := demo_reach
  refine ⟨s, r, ?_⟩
  cases h
  rfl

/-- A resource is deleted: its memory is freed and no list, link, delayed callback or
observer has it any more; each of its observers is told once that it is gone, in the
order in which they registered; nothing else is sent; other resources, links and
observers stay; and each collection that linked it will tell its observers. -/
theorem deleted {s : St} (r : Reach s) {a : Nat} {x : Obj} (e : s.heap a = some x) (hx : x.col = false) :
    ∃ s', step s (.delete a) = .ok s' ∧ s'.heap a = none ∧ (∀ b, b ≠ a → s'.heap b = s.heap b) ∧
      (∀ b, Listed s' b ↔ Listed s b ∧ b ≠ a) ∧
      (∀ c, a ∉ s'.links c) ∧ (∀ c t, t ≠ a → (t ∈ s'.links c ↔ t ∈ s.links c)) ∧
      s'.obs = (s.obs.filter fun o => !(o.res == a)) ∧
      s'.out = s.out ++ (s.obs.filter fun o => o.res == a).map (fun o => .gone o.id o.ep) ∧
      (∀ b ∈ s'.cbs, b.data ≠ a) ∧ (∀ b ∈ s.cbs, b.data ≠ a → b ∈ s'.cbs) ∧
      (∀ c, a ∈ s.links c → ⟨.ll, c⟩ ∈ s'.cbs) := by
  have h := reach_inv r
  obtain ⟨n, b, e1, -, hb⟩ := delete_ok h e hx
  refine ⟨_, e1, put_eq, fun b hb => put_ne hb, fun q => ?_, fun c => (h.lnd c).not_mem_erase,
    fun c t ht => List.mem_erase_of_ne ht, rfl, rfl, fun f hf => ((hb f).mp hf).1, fun f hf hd => (hb f).mpr ⟨hd, .inl hf⟩, fun c hc => ?_⟩
  · have nc : a ∉ s.cols := fun q => by
      obtain ⟨y, ey, hy⟩ := h.colv a q
      rw [e] at ey
      cases ey
      rw [hx] at hy
      cases hy
    unfold Listed
    dsimp only
    rw [List.mem_filter, List.mem_filter, bne_iff_ne]
    constructor
    · rintro (⟨l, w⟩ | ⟨l, w⟩ | l)
      · exact ⟨.inl l, w⟩
      · exact ⟨.inr (.inl l), w⟩
      · exact ⟨.inr (.inr l), fun w => nc (w ▸ l)⟩
    · rintro ⟨l | l | l, w⟩
      · exact .inl ⟨l, w⟩
      · exact .inr (.inl ⟨l, w⟩)
      · exact .inr (.inr l)
  · refine (hb _).mpr ⟨fun w => ?_, .inr ⟨rfl, hc⟩⟩
    obtain ⟨y, ey, hy⟩ := h.colv c (h.lnk c fun q => by rw [q] at hc; cases hc)
    change c = a at w
    rw [w, e] at ey
    cases ey
    rw [hx] at hy
    cases hy

example : ∃ s s', Reach s ∧ step s (.delete 1) = .ok s' ∧ s'.heap 1 = none ∧ s'.links 0 = [] ∧ s'.cbs = [⟨.base, 0⟩, ⟨.ll, 0⟩] ∧
    s'.out = [.note 0 7 0 0, .gone 1 8, .gone 2 9] ∧ s'.obs.length = 1 := by
  obtain ⟨s, h, r, -⟩ := demo_reach
  cases h
  exact ⟨_, _, r, rfl, rfl, rfl, rfl, rfl, rfl⟩

/-- A collection is deleted, minding what has to be minded: its memory is freed and no
list, link, delayed callback or observer has it any more; nothing else changes. -/
theorem collection_deleted {s : St} (r : Reach s) {c : Nat} {y : Obj} (e : s.heap c = some y) (hy : y.col = true)
    (m : Minded s (.deleteCol c)) :
    ∃ s', step s (.deleteCol c) = .ok s' ∧ s'.heap c = none ∧ (∀ b, b ≠ c → s'.heap b = s.heap b) ∧
      c ∉ s'.cols ∧ (∀ b, b ≠ c → (b ∈ s'.cols ↔ b ∈ s.cols)) ∧ s'.app = s.app ∧ s'.del = s.del ∧
      (∀ d, c ∉ s'.links d) ∧ (∀ d, d ≠ c → s'.links d = s.links d) ∧
      s'.obs = s.obs ∧ (∀ o ∈ s'.obs, o.res ≠ c) ∧ s'.cbs = (s.cbs.filter fun f => !(f.data == c)) ∧ s'.out = s.out := by
  obtain ⟨e1, -⟩ := deleteCol_ok (reach_inv r) e hy m
  refine ⟨_, e1, put_eq, fun b hb => put_ne hb, ?_, fun b hb => ?_, rfl, rfl, fun d => ?_, fun d hd => put_ne hd, rfl, m.1, rfl, rfl⟩
  · simp
  · simp [hb]
  · show c ∉ put s.links c [] d
    unfold put
    split
    · exact List.not_mem_nil
    next w => exact m.2.2 d w

/-- A collection with a link, whose only observer has left. -/
theorem demo2_reach : ∃ s, run init (demo ++ [.leave 7]) = .ok s ∧ Reach s ∧ s.heap 0 = some ⟨0, true, 0, 1⟩ ∧ s.links 0 = [1] ∧
    Minded s (.deleteCol 0) := by
  obtain ⟨s, h, r, -⟩ := demo_reach
  cases h
  have r' := Reach.step (op := .leave 7) r trivial trivial rfl
  refine ⟨_, rfl, r', rfl, rfl, ?_, ?_, ?_⟩
  · intro o ho
    rcases ho with _ | ⟨_, _ | ⟨_, ho⟩⟩
    · exact nofun
    · exact nofun
    · cases ho
  · intro b hb
    rcases hb with _ | ⟨_, _ | ⟨_, hb⟩⟩
    · exact nofun
    · exact fun _ => ⟨nofun, nofun⟩
    · cases hb
  · intro d hd
    have h0 := (reach_inv r').lnk d
    intro hm
    have hc := h0 (fun q => by rw [q] at hm; cases hm)
    rcases hc with _ | ⟨_, hc⟩
    · exact hd rfl
    · cases hc

example : ∃ s s', Reach s ∧ s.links 0 = [1] ∧ step s (.deleteCol 0) = .ok s' ∧ s'.heap 0 = none ∧ ∀ d, 0 ∉ s'.links d := by
  obtain ⟨s, -, r, h, hl, m⟩ := demo2_reach
  obtain ⟨s', e, h1, -, -, -, -, -, h2, -⟩ := collection_deleted r h rfl m
  exact ⟨s, s', r, hl, e, h1, h2⟩

/-- A resource is deleted later: until then it cannot be found, nor can another one take
its URI; the callback that deletes it is there. -/
theorem deleted_later {s : St} (r : Reach s) {a : Nat} {x : Obj} (e : s.heap a = some x) (hx : x.col = false)
    (m : a ∈ s.app ∨ a ∈ s.del) :
    ∃ s', step s (.later a) = .ok s' ∧ ⟨.delete, a⟩ ∈ s'.cbs ∧ s'.heap = s.heap ∧
      (∀ e i, step s' (.observe e i a) = .ok s') ∧
      (∀ b y, s'.heap b = some y → y.dev = x.dev → y.uri = x.uri → step s' (.add b) = .ok s') ∧
      (∀ b, b ≠ a → (b ∈ s'.app ↔ b ∈ s.app)) ∧ s'.obs = s.obs ∧ s'.out = s.out := by
  have h := reach_inv r
  have e1 : step s (.later a) = .ok (schedule .delete a { s with
      app := s.app.filter fun b => b != a, del := if s.del.contains a then s.del else s.del ++ [a] }) := by
    show later a s = _
    unfold later
    rw [e]
    dsimp only
    rw [hx, if_neg Bool.false_ne_true]
  have hin : a ∈ (if s.del.contains a then s.del else s.del ++ [a]) := by
    split
    next q => exact List.contains_iff_mem.mp q
    · exact List.mem_append_right _ (.head _)
  have hout : a ∉ (s.app.filter fun b => b != a) := by simp
  have nc : a ∉ s.cols := fun q => by
    obtain ⟨y, ey, hy⟩ := h.colv a q
    rw [e] at ey
    cases ey
    rw [hx] at hy
    cases hy
  refine ⟨_, e1, List.mem_append_right _ (.head _), rfl, fun p i => ?_, fun b y eb hd hu => ?_, fun b hb => ?_, rfl, rfl⟩
  · show observe p i a _ = _
    unfold observe
    refine if_neg fun q => ?_
    rcases (Bool.or_eq_true _ _).mp q with q | q
    · exact hout (List.contains_iff_mem.mp q)
    · exact nc (List.contains_iff_mem.mp q)
  · show add b _ = _
    unfold add
    rw [eb]
    have hi : inUse (schedule .delete a { s with
      app := s.app.filter fun b => b != a, del := if s.del.contains a then s.del else s.del ++ [a] }) y = true := by
      unfold inUse
      rw [List.any_eq_true]
      refine ⟨a, List.mem_append_left _ (List.mem_append_right _ hin), ?_⟩
      show (match s.heap a with | none => false | some z => z.dev == y.dev && z.uri == y.uri) = true
      rw [e]
      dsimp only
      rw [hd, hu, beq_self_eq_true, beq_self_eq_true]; rfl
    dsimp only
    rw [hi, Bool.or_true, Bool.or_true, if_pos rfl]
    split
    · rfl
    · exact if_pos rfl
  · show b ∈ (s.app.filter fun b => b != a) ↔ _
    rw [List.mem_filter, bne_iff_ne]
    exact ⟨And.left, fun q => ⟨q, hb⟩⟩

example : ∃ s s', Reach s ∧ step s (.later 1) = .ok s' ∧ s'.app = [] ∧ s'.del = [1] ∧ s'.cbs = [⟨.changed, 1⟩, ⟨.base, 0⟩, ⟨.delete, 1⟩] := by
  obtain ⟨s, h, r, -⟩ := demo_reach
  cases h
  exact ⟨_, _, r, rfl, rfl, rfl, rfl⟩

/-- The callback that deletes a resource does what deleting it does. -/
theorem due_deletes {s : St} {k a : Nat} (h : s.cbs[k]? = some ⟨.delete, a⟩) :
    step s (.fire k) = step { s with cbs := s.cbs.eraseIdx k } (.delete a) := by
  show fire k s = _
  unfold fire
  rw [h]
  rfl

example : ∃ s s' s'', Reach s ∧ step s (.later 1) = .ok s' ∧ s'.cbs[2]? = some ⟨.delete, 1⟩ ∧ step s' (.fire 2) = .ok s'' ∧ s''.heap 1 = none := by
  obtain ⟨s, h, r, -⟩ := demo_reach
  cases h
  exact ⟨_, _, _, r, rfl, rfl, rfl, rfl⟩

/-- A resource changed: exactly its own observers, each once and in the order of their
registration, are told first; anybody else that is told watches a collection that links
it, with the batch interface. -/
theorem change_told {s : St} (r : Reach s) {a : Nat} {x : Obj} (e : s.heap a = some x) (hx : x.col = false) :
    ∃ s' l, step s (.changed a) = .ok s' ∧
      s'.out = s.out ++ (s.obs.filter fun o => o.res == a).map (fun o => .note o.id o.ep o.gen x.gen) ++ l ∧
      (∀ m ∈ l, ∃ o ∈ s.obs, m = .note o.id o.ep o.gen o.gen ∧ o.iface = .batch ∧ a ∈ s.links o.res) ∧
      s'.obs = s.obs ∧ s'.cbs = s.cbs ∧ s'.heap = s.heap ∧ s'.links = s.links := by
  have h := reach_inv r
  obtain ⟨e1, -⟩ := changed_ok h e
  refine ⟨_, ((linkers s a x.dev).takeWhile fun c => s.nobs c != 0).flatMap (batchOf s), e1, ?_, ?_, rfl, rfl, rfl, rfl⟩
  · have : (s.obs.filter fun o => o.res == a && (!x.col || o.iface == .base)) = s.obs.filter fun o => o.res == a := by
      apply List.filter_congr
      intro o _
      rw [hx, Bool.not_false, Bool.true_or, Bool.and_true]
    dsimp only
    rw [this]
    rfl
  · intro m hm
    obtain ⟨c, hc, hm⟩ := List.mem_flatMap.mp hm
    have hl : c ∈ linkers s a x.dev := (List.takeWhile_sublist _).subset hc
    have hl := (List.mem_filter.mp hl).2
    unfold batchOf at hm
    cases ec : s.heap c with
    | none => rw [ec] at hm; cases hm
    | some y =>
      rw [ec] at hm hl
      dsimp only at hm hl
      rw [Bool.and_eq_true, List.contains_iff_mem] at hl
      obtain ⟨o, ho, rfl⟩ := List.mem_map.mp hm
      obtain ⟨h1, h2⟩ := List.mem_filter.mp ho
      rw [Bool.and_eq_true, beq_iff_eq, beq_iff_eq] at h2
      obtain ⟨z, ez, hg, -⟩ := h.obsv o h1
      rw [h2.1, ec] at ez
      cases ez
      exact ⟨o, h1, by rw [hg], h2.2, by rw [h2.1]; exact hl.2⟩

example : ∃ s s', Reach s ∧ step s (.changed 1) = .ok s' ∧ s'.out = [.note 0 7 0 0, .note 1 8 1 1, .note 2 9 1 1] := by
  obtain ⟨s, h, r, -⟩ := demo_reach
  cases h
  exact ⟨_, _, r, rfl, rfl⟩

/-- The callback a collection is left with when a link was added or taken away tells
exactly its observers of the links list, in order, and then leaves the one for the
observers of the baseline interface. -/
theorem links_told {s : St} (r : Reach s) {k c : Nat} (hk : s.cbs[k]? = some ⟨.ll, c⟩) :
    ∃ s' y, s.heap c = some y ∧ step s (.fire k) = .ok s' ∧
      s'.out = s.out ++ (s.obs.filter fun o => o.res == c && (o.iface == .ll || o.iface == .dflt)).map (fun o => .note o.id o.ep o.gen y.gen) ∧
      ⟨.base, c⟩ ∈ s'.cbs := by
  have h := reach_inv r
  obtain ⟨y, ey, -⟩ := h.cbv _ (List.mem_of_getElem? hk)
  change s.heap c = some y at ey
  have hd : derefs { s with cbs := s.cbs.eraseIdx k } (s.links c) = .ok () := h.derefLinks c
  refine ⟨schedule .base c { s with
      cbs := s.cbs.eraseIdx k,
      out := s.out ++ notes y.gen (s.obs.filter fun o => o.res == c && (o.iface == .ll || (o.iface == .dflt && Iface.ll == .ll))) },
    y, ey, ?_, ?_, ?_⟩
  · show fire k s = _
    unfold fire
    rw [hk]
    dsimp only [call]
    unfold noteCol
    dsimp only
    rw [ey]
    dsimp only
    rw [hd]
    rfl
  · show s.out ++ notes y.gen _ = _
    have : ∀ o : Obs, (o.res == c && (o.iface == .ll || (o.iface == .dflt && Iface.ll == .ll))) = (o.res == c && (o.iface == .ll || o.iface == .dflt)) := by
      intro o
      rw [beq_self_eq_true, Bool.and_true]
    simp only [this]
    rfl
  · exact List.mem_append_right _ (.head _)

example : ∃ s s' s'', Reach s ∧ step s (.delete 1) = .ok s' ∧ s'.cbs[1]? = some ⟨.ll, 0⟩ ∧ step s' (.fire 1) = .ok s'' ∧
    s''.out = [.note 0 7 0 0, .gone 1 8, .gone 2 9, .note 0 7 0 0] ∧ s''.cbs = [⟨.base, 0⟩] := by
  obtain ⟨s, h, r, -⟩ := demo_reach
  cases h
  exact ⟨_, _, _, r, rfl, rfl, rfl, rfl, rfl⟩

/-- A client that observes takes the place of its own observer with the same endpoint,
path and interface; all others stay. -/
theorem observed {s : St} (r : Reach s) {e : Nat} {i : Iface} {a : Nat} {x : Obj} (ha : a ∈ s.app ∨ a ∈ s.cols) (ex : s.heap a = some x) :
    ∃ s', step s (.observe e i a) = .ok s' ∧
      s'.obs = (s.obs.filter fun o => !(o.ep == e && o.dev == x.dev && o.uri == x.uri && o.iface == i)) ++
        [⟨s.nid, e, x.dev, x.uri, i, a, x.gen⟩] ∧ s'.out = s.out := by
  have h := reach_inv r
  obtain ⟨n, e1, -⟩ := removeBy_ok silent_true (fun o => o.ep == e && o.dev == x.dev && o.uri == x.uri && o.iface == i) h
  refine ⟨addObs e i a x { s with
      nobs := n, obs := s.obs.filter fun o => !(o.ep == e && o.dev == x.dev && o.uri == x.uri && o.iface == i),
      out := s.out ++ (s.obs.filter fun o => o.ep == e && o.dev == x.dev && o.uri == x.uri && o.iface == i).flatMap silent }, ?_, rfl, ?_⟩
  · show observe e i a s = _
    unfold observe
    rw [if_pos (by rw [Bool.or_eq_true, List.contains_iff_mem, List.contains_iff_mem]; exact ha), ex]
    dsimp only
    rw [h.derefLinks a]
    dsimp only [Out.bind]
    rw [e1]
  · show s.out ++ List.flatMap silent _ = s.out
    have : ∀ l : List Obs, l.flatMap silent = [] := fun l => by
      rw [List.flatMap_eq_nil_iff]
      intro o _
      rfl
    rw [this, List.append_nil]

example : ∃ s s', Reach s ∧ step s (.observe 8 .dflt 1) = .ok s' ∧ s'.obs.map (fun o => (o.id, o.ep)) = [(0, 7), (2, 9), (3, 8)] := by
  obtain ⟨s, h, r, -⟩ := demo_reach
  cases h
  exact ⟨_, _, r, rfl, rfl⟩

/-- A client that leaves has no observers any more, is sent nothing, and those of other
clients stay. -/
theorem left {s : St} (r : Reach s) (e : Nat) :
    ∃ s', step s (.leave e) = .ok s' ∧ s'.obs = (s.obs.filter fun o => !(o.ep == e)) ∧ s'.out = s.out := by
  obtain ⟨n, e1, -⟩ := removeBy_ok silent_true (fun o => o.ep == e) (reach_inv r)
  refine ⟨_, e1, rfl, ?_⟩
  have : ∀ l : List Obs, l.flatMap silent = [] := fun l => by
    rw [List.flatMap_eq_nil_iff]
    intro o _
    rfl
  dsimp only
  rw [this, List.append_nil]

example : ∃ s s', Reach s ∧ step s (.leave 8) = .ok s' ∧ s'.obs.map (fun o => (o.id, o.ep)) = [(0, 7), (2, 9)] := by
  obtain ⟨s, h, r, -⟩ := demo_reach
  cases h
  exact ⟨_, _, r, rfl, rfl⟩

/-- A device that is reset ends each of its observations, telling each observer once. -/
theorem reset_ends {s : St} (r : Reach s) (d : Nat) :
    ∃ s', step s (.reset d) = .ok s' ∧ s'.obs = (s.obs.filter fun o => !(o.dev == d)) ∧
      s'.out = s.out ++ (s.obs.filter fun o => o.dev == d).map (fun o => .unavailable o.id o.ep) := by
  obtain ⟨n, e1, -⟩ := removeBy_ok unavailable_true (fun o => o.dev == d) (reach_inv r)
  refine ⟨_, e1, rfl, ?_⟩
  dsimp only
  rw [← List.map_eq_flatMap]

example : ∃ s s', Reach s ∧ step s (.reset 0) = .ok s' ∧ s'.obs = [] ∧ s'.out = [.note 0 7 0 0, .unavailable 0 7, .unavailable 1 8, .unavailable 2 9] := by
  obtain ⟨s, h, r, -⟩ := demo_reach
  cases h
  exact ⟨_, _, r, rfl, rfl, rfl⟩

/-- What nobody else of the device has the URI of is added, a resource to the resources
and a collection to the collections; otherwise nothing changes. -/
theorem added {s : St} (r : Reach s) {a : Nat} {x : Obj} (e : s.heap a = some x) :
    ∃ s', step s (.add a) = .ok s' ∧
      ((∃ b y, Listed s b ∧ s.heap b = some y ∧ y.dev = x.dev ∧ y.uri = x.uri) → s' = s) ∧
      ((¬ ∃ b y, Listed s b ∧ s.heap b = some y ∧ y.dev = x.dev ∧ y.uri = x.uri) →
        s' = if x.col then { s with cols := s.cols ++ [a] } else { s with app := s.app ++ [a] }) := by
  have h := reach_inv r
  have hi : inUse s x = true ↔ ∃ b y, Listed s b ∧ s.heap b = some y ∧ y.dev = x.dev ∧ y.uri = x.uri := by
    constructor
    · intro q
      unfold inUse at q
      rw [List.any_eq_true] at q
      obtain ⟨b, hb, q⟩ := q
      rw [List.mem_append, List.mem_append, or_assoc] at hb
      obtain ⟨y, ey⟩ := h.listed hb
      rw [ey] at q
      dsimp only at q
      rw [Bool.and_eq_true, beq_iff_eq, beq_iff_eq] at q
      exact ⟨b, y, hb, ey, q⟩
    · rintro ⟨b, y, hb, ey, q⟩
      cases hq : inUse s x with
      | true => rfl
      | false => exact absurd q (not_inUse hq hb ey)
  show ∃ s', add a s = .ok s' ∧ _
  unfold add
  rw [e]
  dsimp only
  cases hq : inUse s x with
  | true =>
    rw [Bool.or_true, Bool.or_true, if_pos rfl, if_pos rfl]
    refine ⟨s, by split <;> rfl, fun _ => rfl, fun n => absurd (hi.mp hq) n⟩
  | false =>
    have n : ¬ ∃ b y, Listed s b ∧ s.heap b = some y ∧ y.dev = x.dev ∧ y.uri = x.uri := fun w => by
      rw [hi.mpr w] at hq
      cases hq
    have nl : ¬ Listed s a := fun l => n ⟨a, x, l, e, rfl, rfl⟩
    have n1 : s.app.contains a = false := by rw [← Bool.not_eq_true, List.contains_iff_mem]; exact fun w => nl (.inl w)
    have n2 : s.del.contains a = false := by rw [← Bool.not_eq_true, List.contains_iff_mem]; exact fun w => nl (.inr (.inl w))
    have n3 : s.cols.contains a = false := by rw [← Bool.not_eq_true, List.contains_iff_mem]; exact fun w => nl (.inr (.inr w))
    rw [n1, n2, n3]
    rw [Bool.or_false, Bool.or_false, if_neg Bool.false_ne_true, if_neg Bool.false_ne_true]
    refine ⟨if x.col then { s with cols := s.cols ++ [a] } else { s with app := s.app ++ [a] }, by split <;> rfl, fun w => absurd w n, fun _ => rfl⟩

example : ∃ s s', Reach s ∧ step s (.add 2) = .ok s' ∧ s'.app = [1, 2] := by
  obtain ⟨s, h, r, -⟩ := demo_reach
  cases h
  have r' := Reach.step (op := .new 2 false 1 2) r trivial trivial rfl
  exact ⟨_, _, r', rfl, rfl⟩

/-- A resource is linked: it comes after the links with URIs that are not later, up to
the first later one; nothing else changes but that the collection will tell its
observers. -/
theorem linked {s : St} (r : Reach s) {c a : Nat} {x : Obj} (e : s.heap a = some x) (m : Minded s (.link c a)) :
    ∃ s' l k, step s (.link c a) = .ok s' ∧ s.links c = l ++ k ∧ s'.links c = l ++ a :: k ∧
      (∀ t ∈ l, ∀ y, s.heap t = some y → y.uri ≤ x.uri) ∧ (∀ t, k.head? = some t → ∀ y, s.heap t = some y → x.uri < y.uri) ∧
      (∀ d, d ≠ c → s'.links d = s.links d) ∧ ⟨.ll, c⟩ ∈ s'.cbs ∧ s'.obs = s.obs ∧ s'.heap = s.heap ∧ s'.out = s.out := by
  have h := reach_inv r
  obtain ⟨y, ey, hy⟩ := h.colv c m.1
  obtain ⟨l, k, e1, e2, h1, h2⟩ := place a x.uri (h := s.heap) (l := s.links c) fun t ht => h.listed (h.tgt c t ht).1
  refine ⟨schedule .ll c { s with links := put s.links c (l ++ a :: k) }, l, k, ?_, e1, put_eq, h1, h2, fun d hd => put_ne hd,
    List.mem_append_right _ (.head _), rfl, rfl, rfl⟩
  show link c a s = _
  unfold link
  rw [ey, e]
  dsimp only
  rw [if_pos hy, e2]
  rfl
where
  place {h : Nat → Option Obj} (a u : Nat) : ∀ {l : List Nat}, (∀ t ∈ l, ∃ x, h t = some x) →
      ∃ p k, l = p ++ k ∧ insert h a u l = .ok (p ++ a :: k) ∧ (∀ t ∈ p, ∀ y, h t = some y → y.uri ≤ u) ∧
        (∀ t, k.head? = some t → ∀ y, h t = some y → u < y.uri)
    | [], _ => ⟨[], [], rfl, rfl, (by intro t q; cases q), (by intro t q; cases q)⟩
    | t :: l, hl => by
      obtain ⟨x, e⟩ := hl t (.head _)
      by_cases hu : u < x.uri
      · refine ⟨[], t :: l, rfl, ?_, (by intro t q; cases q), fun w hw y ey => ?_⟩
        · rw [insert, e]
          dsimp only
          rw [if_pos hu]
          rfl
        · rw [List.head?_cons] at hw
          cases hw
          rw [e] at ey
          cases ey
          exact hu
      · obtain ⟨p, k, e1, e2, h1, h2⟩ := place a u (h := h) (l := l) fun w hw => hl w (.tail _ hw)
        refine ⟨t :: p, k, by rw [e1]; rfl, ?_, fun w hw y ey => ?_, h2⟩
        · rw [insert, e]
          dsimp only
          rw [if_neg hu, e2]
          rfl
        · rcases List.mem_cons.mp hw with q | q
          · rw [q, e] at ey
            cases ey
            omega
          · exact h1 w q y ey

example : ∃ s s', Reach s ∧ Minded s (.link 0 2) ∧ step s (.link 0 2) = .ok s' ∧ s'.links 0 = [1, 2] ∧ s'.cbs = [⟨.changed, 1⟩, ⟨.base, 0⟩, ⟨.ll, 0⟩] := by
  obtain ⟨s, h, r, -⟩ := demo_reach
  cases h
  have r' := Reach.step (op := .new 2 false 0 3) r trivial trivial rfl
  have r'' := Reach.step (op := .add 2) r' ⟨_, rfl⟩ trivial rfl
  refine ⟨_, _, r'', ⟨.head _, .inl (.tail _ (.head _)), ?_, rfl⟩, rfl, rfl, rfl⟩
  show 2 ∉ [1]
  decide

/-- A resource is unlinked: the collection does not link it any more and will tell its
observers; other links stay. -/
theorem unlinked {s : St} (r : Reach s) {c a : Nat} (ha : a ∈ s.links c) :
    ∃ s', step s (.unlink c a) = .ok s' ∧ a ∉ s'.links c ∧ (∀ t, t ≠ a → (t ∈ s'.links c ↔ t ∈ s.links c)) ∧
      (∀ d, d ≠ c → s'.links d = s.links d) ∧ ⟨.ll, c⟩ ∈ s'.cbs ∧ s'.obs = s.obs ∧ s'.heap = s.heap ∧ s'.out = s.out := by
  have h := reach_inv r
  obtain ⟨y, ey, hy⟩ := h.colv c (h.lnk c fun q => by rw [q] at ha; cases ha)
  refine ⟨schedule .ll c { s with links := put s.links c ((s.links c).erase a) }, ?_, ?_, fun t ht => ?_, fun d hd => put_ne hd,
    List.mem_append_right _ (.head _), rfl, rfl, rfl⟩
  · show unlink c a s = _
    unfold unlink
    rw [ey]
    dsimp only
    rw [if_neg (by rw [hy]; exact Bool.false_ne_true), if_pos (List.contains_iff_mem.mpr ha)]
  · show a ∉ put s.links c ((s.links c).erase a) c
    rw [put_eq]
    exact (h.lnd c).not_mem_erase
  · show t ∈ put s.links c ((s.links c).erase a) c ↔ _
    rw [put_eq]
    exact List.mem_erase_of_ne ht

example : ∃ s s', Reach s ∧ 1 ∈ s.links 0 ∧ step s (.unlink 0 1) = .ok s' ∧ s'.links 0 = [] := by
  obtain ⟨s, h, r, -⟩ := demo_reach
  cases h
  exact ⟨_, _, r, .head _, rfl, rfl⟩

/-- An observer that cancels is gone; the others stay and nothing is sent. -/
theorem cancelled {s : St} (r : Reach s) (id : Nat) :
    ∃ s', step s (.cancel id) = .ok s' ∧ s'.obs = (s.obs.filter fun o => !(o.id == id)) ∧ s'.out = s.out := by
  obtain ⟨n, e1, -⟩ := removeBy_ok silent_true (fun o => o.id == id) (reach_inv r)
  refine ⟨_, e1, rfl, ?_⟩
  have : ∀ l : List Obs, l.flatMap silent = [] := fun l => by
    rw [List.flatMap_eq_nil_iff]
    intro o _
    rfl
  dsimp only
  rw [this, List.append_nil]

example : ∃ s s', Reach s ∧ step s (.cancel 1) = .ok s' ∧ s'.obs.map (fun o => (o.id, o.ep)) = [(0, 7), (2, 9)] := by
  obtain ⟨s, h, r, -⟩ := demo_reach
  cases h
  exact ⟨_, _, r, rfl, rfl⟩

/-- No callback of a resource is there twice. -/
theorem callbacks_once {s : St} (r : Reach s) : s.cbs.Nodup := (reach_inv r).cbn

example : ∃ s s', Reach s ∧ step s (.changedLater 1) = .ok s' ∧ Reach s' ∧ s'.cbs = [⟨.base, 0⟩, ⟨.changed, 1⟩] ∧ s'.cbs.Nodup := by
  obtain ⟨s, h, r, -⟩ := demo_reach
  cases h
  have r' := Reach.step (op := .changedLater 1) r ⟨_, rfl⟩ trivial rfl
  exact ⟨_, _, r, rfl, r', rfl, callbacks_once r'⟩

/-- A notification that is to be sent later is scheduled, the application's always or if
there is an observer, that of a batch update for the batch observers; other callbacks
stay, and nothing else changes. -/
theorem scheduled {s : St} {a : Nat} {x : Obj} (e : s.heap a = some x) :
    (∃ s', step s (.changedLater a) = .ok s' ∧ s'.cbs = (s.cbs.filter fun c => c != ⟨.changed, a⟩) ++ [⟨.changed, a⟩] ∧ s' = { s with cbs := s'.cbs }) ∧
    ((∃ o ∈ s.obs, o.res = a) → ∃ s', step s (.observersLater a) = .ok s' ∧
      s'.cbs = (s.cbs.filter fun c => c != ⟨.observers, a⟩) ++ [⟨.observers, a⟩] ∧ s' = { s with cbs := s'.cbs }) ∧
    ((∀ o ∈ s.obs, o.res ≠ a) → step s (.observersLater a) = .ok s) ∧
    (x.col = true → ∃ s', step s (.wrote a) = .ok s' ∧ s'.cbs = (s.cbs.filter fun c => c != ⟨.batch, a⟩) ++ [⟨.batch, a⟩] ∧ s' = { s with cbs := s'.cbs }) := by
  refine ⟨⟨schedule .changed a s, ?_, rfl, rfl⟩, fun ho => ⟨schedule .observers a s, ?_, rfl, rfl⟩, fun hn => ?_, fun hx => ⟨schedule .batch a s, ?_, rfl, rfl⟩⟩
  · show changedLater a s = _
    unfold changedLater
    rw [e]
  · show observersLater a s = _
    unfold observersLater
    rw [e]
    dsimp only
    obtain ⟨o, h1, h2⟩ := ho
    exact if_pos (List.any_eq_true.mpr ⟨o, h1, by rw [h2]; exact beq_self_eq_true a⟩)
  · show observersLater a s = _
    unfold observersLater
    rw [e]
    dsimp only
    rw [if_neg]
    intro q
    obtain ⟨o, h1, h2⟩ := List.any_eq_true.mp q
    exact hn o h1 (beq_iff_eq.mp h2)
  · show wrote a s = _
    unfold wrote
    rw [e]
    dsimp only
    rw [if_pos hx]

example : ∃ s s', Reach s ∧ step s (.observersLater 1) = .ok s' ∧ s'.cbs = [⟨.changed, 1⟩, ⟨.base, 0⟩, ⟨.observers, 1⟩] := by
  obtain ⟨s, h, r, -⟩ := demo_reach
  cases h
  exact ⟨_, _, r, rfl, rfl⟩

/-- A notification that was to be sent later and is due is sent as at once, and its
callback is gone. -/
theorem due_told {s : St} {k a : Nat} {f : Fn} (h : s.cbs[k]? = some ⟨f, a⟩) (hf : f = .changed ∨ f = .observers) :
    step s (.fire k) = step { s with cbs := s.cbs.eraseIdx k } (.changed a) := by
  show fire k s = _
  unfold fire
  rw [h]
  rcases hf with rfl | rfl <;> rfl

example : ∃ s s', Reach s ∧ s.cbs[0]? = some ⟨.changed, 1⟩ ∧ step s (.fire 0) = .ok s' ∧ s'.out = [.note 0 7 0 0, .note 1 8 1 1, .note 2 9 1 1] ∧
    s'.cbs = [⟨.base, 0⟩] := by
  obtain ⟨s, h, r, -⟩ := demo_reach
  cases h
  exact ⟨_, _, r, rfl, rfl, rfl, rfl⟩

/-- The callbacks for the baseline and batch observers of a collection tell exactly
those, in order, and are gone. -/
theorem others_told {s : St} (r : Reach s) {k c : Nat} {f : Fn} {i : Iface} (hk : s.cbs[k]? = some ⟨f, c⟩)
    (hf : (f = .base ∧ i = .base) ∨ (f = .batch ∧ i = .batch)) :
    ∃ s' y, s.heap c = some y ∧ step s (.fire k) = .ok s' ∧
      s'.out = s.out ++ (s.obs.filter fun o => o.res == c && o.iface == i).map (fun o => .note o.id o.ep o.gen y.gen) ∧
      s'.cbs = s.cbs.eraseIdx k ∧ s'.obs = s.obs := by
  have h := reach_inv r
  obtain ⟨y, ey, -⟩ := h.cbv _ (List.mem_of_getElem? hk)
  change s.heap c = some y at ey
  have hd : derefs { s with cbs := s.cbs.eraseIdx k } (s.links c) = .ok () := h.derefLinks c
  refine ⟨({ s with cbs := s.cbs.eraseIdx k, out := s.out ++ notes y.gen (s.obs.filter fun o => o.res == c && o.iface == i) } : St), y, ey, ?_, rfl, rfl, rfl⟩
  have hi : ∀ o : Obs, (o.res == c && (o.iface == i || (o.iface == .dflt && i == .ll))) = (o.res == c && o.iface == i) := by
    intro o
    have : (i == Iface.ll) = false := by rcases hf with ⟨-, rfl⟩ | ⟨-, rfl⟩ <;> rfl
    rw [this, Bool.and_false, Bool.or_false]
  show fire k s = _
  unfold fire
  rw [hk]
  have hc : call ⟨f, c⟩ { s with cbs := s.cbs.eraseIdx k } = noteCol c i { s with cbs := s.cbs.eraseIdx k } := by
    rcases hf with ⟨rfl, rfl⟩ | ⟨rfl, rfl⟩ <;> rfl
  dsimp only
  rw [hc]
  unfold noteCol
  dsimp only
  rw [ey]
  dsimp only
  rw [hd]
  simp only [hi]
  rfl

example : ∃ s s', Reach s ∧ s.cbs[1]? = some ⟨.base, 0⟩ ∧ step s (.fire 1) = .ok s' ∧ s'.out = [.note 0 7 0 0] := by
  obtain ⟨s, h, r, -⟩ := demo_reach
  cases h
  exact ⟨_, _, r, rfl, rfl, rfl⟩

/-! ### What has to be minded -/

/-- A collection that has an observer is deleted: the observer stays, and when its client
leaves the freed memory is written. -/
theorem collection_observed_ub : run init [.new 0 true 0 1, .add 0, .observe 7 .ll 0, .deleteCol 0, .leave 7] = .ub := rfl

/-- A collection that has an observer is deleted, and another one is made in the same
memory: the observer is notified of the other collection. -/
theorem collection_reused_false : ¬ ∀ (ops : List Op) (s : St), run init ops = .ok s → Truthful s.out := by
  intro h
  have := h [.new 0 true 0 1, .add 0, .observe 7 .ll 0, .deleteCol 0, .new 0 true 0 2, .add 0, .new 1 false 0 3, .add 1, .link 0 1, .fire 0]
    _ rfl 0 7 0 1 (.head _)
  cases this

/-- A collection whose observers were to be notified later is deleted: the callback stays
and reads freed memory. -/
theorem collection_pending_ub : run init [.new 0 true 0 1, .add 0, .changedLater 0, .deleteCol 0, .fire 0] = .ub := rfl

/-- A collection that another collection links is deleted: the link stays, and the other
collection reads freed memory when it tells its observers. -/
theorem collection_linked_ub :
    run init [.new 0 true 0 1, .add 0, .new 1 true 0 2, .add 1, .link 0 1, .deleteCol 1, .fire 0] = .ub := rfl

/-- A resource that is linked twice in a collection is deleted: one link stays, and the
collection reads freed memory. -/
theorem linked_twice_ub :
    run init [.new 0 true 0 1, .add 0, .new 1 false 0 2, .add 1, .link 0 1, .link 0 1, .delete 1, .fire 0] = .ub := rfl

/-- A resource that a collection of another device links is deleted: the link stays, and
the collection reads freed memory. -/
theorem linked_elsewhere_ub :
    run init [.new 0 true 0 1, .add 0, .new 1 false 1 2, .add 1, .link 0 1, .delete 1, .fire 0] = .ub := rfl

/-- A collection links two resources with the same URI, of two devices: deleting the one
of its own device takes away the link to the other one, and the collection reads freed
memory. -/
theorem linked_namesake_ub :
    run init [.new 0 true 0 1, .add 0, .new 1 false 1 2, .add 1, .new 2 false 0 2, .add 2, .link 0 1, .link 0 2, .delete 2, .fire 0] = .ub := rfl

/-- A resource that is linked from a collection that was not added yet is deleted: the
link stays, and the collection reads freed memory. -/
theorem linked_early_ub :
    run init [.new 0 true 0 1, .new 1 false 0 2, .add 1, .link 0 1, .delete 1, .fire 0] = .ub := rfl

/-- Two collections link a resource that changed, the first without observers: those who
watch the second one with the batch interface are not told. -/
theorem second_collection_false :
    ∃ ops s s', run init ops = .ok s ∧ Reach s ∧ (∃ o ∈ s.obs, o.iface = .batch ∧ 2 ∈ s.links o.res) ∧
      step s (.changed 2) = .ok s' ∧ s'.out = [] := by
  have r1 := Reach.step (op := .new 0 true 0 1) .init trivial trivial rfl
  have r2 := Reach.step (op := .new 1 true 0 2) r1 trivial trivial rfl
  have r3 := Reach.step (op := .new 2 false 0 3) r2 trivial trivial rfl
  have r4 := Reach.step (op := .add 0) r3 ⟨_, rfl⟩ trivial rfl
  have r5 := Reach.step (op := .add 1) r4 ⟨_, rfl⟩ trivial rfl
  have r6 := Reach.step (op := .add 2) r5 ⟨_, rfl⟩ trivial rfl
  have r7 := Reach.step (op := .link 0 2) r6 ⟨⟨_, rfl, rfl⟩, _, rfl⟩ ⟨.head _, .inl (.head _), List.not_mem_nil, rfl⟩ rfl
  have r8 := Reach.step (op := .link 1 2) r7 ⟨⟨_, rfl, rfl⟩, _, rfl⟩ ⟨.tail _ (.head _), .inl (.head _), List.not_mem_nil, rfl⟩ rfl
  have r9 := Reach.step (op := .observe 7 .batch 1) r8 trivial (by show 0 < 255; omega) rfl
  exact ⟨[.new 0 true 0 1, .new 1 true 0 2, .new 2 false 0 3, .add 0, .add 1, .add 2, .link 0 2, .link 1 2, .observe 7 .batch 1],
    _, _, rfl, r9, ⟨_, .head _, rfl, .head _⟩, rfl, rfl⟩

end Verif.Life
