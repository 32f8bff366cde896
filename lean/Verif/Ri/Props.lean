import Verif.Ri.ServeLemmas

/-! Properties of the list of resources and of the treatment of requests. -/

namespace Verif.Ri

open Verif.Rep (Bytes b)
open Spec

/-! ### The list of resources -/

/-- After every history of adding and deleting resources and collections the ones
that are registered have pairwise different URIs on a device, and none has the URI
of a resource of the framework. Part of the full claim: the URIs begin with
exactly one slash (see `double_slash_false`). -/
theorem uris_unique_partial (c : Core) (l : List Op) (h : ∀ o ∈ l, o.Proper) :
    ∃ t, run c empty l = .ok t ∧
      (t.app ++ t.cols).Pairwise (fun x y => ¬ (x.dev = y.dev ∧ x.uri = y.uri)) ∧
      ∀ r ∈ t.app ++ t.cols, c.find r.uri r.dev = none := by
  obtain ⟨t, ht, hi⟩ := run_inv c l empty (inv_empty c) h
  exact ⟨t, ht, hi.uniq, hi.core⟩

/-- A resource of an application for the examples. -/
def exRes (i : Nat) (uri : Bytes) : Res where
  id := i
  dev := 0
  uri := uri
  has := fun m => m == .get || m == .post
  ifaces := Iface.baseline.bit ||| Iface.rw.bit
  dflt := Iface.rw.bit
  observable := true
  periodic := false
  period := 0
  coll := false

/-- A server with one device for the examples. -/
def exCore : Core where
  con := false
  ndev := 1
  res := fun u d => { exRes (1000 + u.length) u with dev := d }

theorem proper_light : Proper (b "/light") := ⟨b "light", by decide, by decide⟩

example : (run exCore empty [.add (exRes 1 (b "/light")), .add (exRes 2 (b "/light")),
      .addCol (exRes 3 (b "/light")), .add (exRes 4 (b "/oic/d"))]).bind
    (fun s => .ok ((s.app ++ s.cols).map (·.id))) = .ok [1] := by decide +kernel

example : ∀ o ∈ [Op.add (exRes 1 (b "/light")), .addCol (exRes 3 (b "/light"))], o.Proper := by
  intro o ho
  simp only [List.mem_cons, List.not_mem_nil, or_false] at ho
  rcases ho with rfl | rfl <;> exact proper_light

/-- FALSE: two resources with the same URI are never registered on the same
device. A URI that begins with two slashes is compared with the stored one without
either of its slashes on one side and without one of them on the other, so the
second registration is accepted. -/
theorem double_slash_false : ¬ ∀ (c : Core) (l : List Op) (t : Reg), run c empty l = .ok t →
    (t.app ++ t.cols).Pairwise (fun x y => ¬ (x.dev = y.dev ∧ x.uri = y.uri)) := by
  intro h
  have := h exCore [.add (exRes 1 (b "//a")), .add (exRes 2 (b "//a"))]
    ⟨[exRes 1 (b "//a"), exRes 2 (b "//a")], [], []⟩ rfl
  have := (List.pairwise_cons.1 this).1 (exRes 2 (b "//a")) (by simp)
  exact this ⟨rfl, rfl⟩

/-- A resource is added exactly if it has a handler, a period if it is periodic,
is not in a list already, and its URI is not in use: by the framework, by a
resource or collection of the device, or by a resource waiting for its
deletion. -/
theorem add_iff (c : Core) (l : List Op) (h : ∀ o ∈ l, o.Proper) (r : Res) (hr : Proper r.uri) :
    ∃ t, run c empty l = .ok t ∧ ∃ x u, addRes c t r = .ok (x, u) ∧
      (x = true ↔ (∃ m, r.has m = true) ∧ (r.periodic = true → r.period ≠ 0) ∧
        (∀ y ∈ t.app ++ t.del, y.id ≠ r.id) ∧ c.find r.uri r.dev = none ∧
        ∀ y ∈ t.app ++ t.del ++ t.cols, ¬ (y.dev = r.dev ∧ y.uri = r.uri)) ∧
      (x = true → u = { t with app := t.app ++ [r] }) ∧ (x = false → u = t) := by
  obtain ⟨t, ht, hi⟩ := run_inv c l empty (inv_empty c) h
  refine ⟨t, ht, ?_⟩
  unfold addRes
  by_cases h1 : (!(r.has .get) && !(r.has .put) && !(r.has .post) && !(r.has .delete)) = true
  · rw [if_pos h1]
    refine ⟨false, t, rfl, ⟨(fun x => by cases x), ?_⟩, (fun x => by cases x), fun _ => rfl⟩
    rintro ⟨⟨m, hm⟩, _⟩
    simp only [Bool.and_eq_true, Bool.not_eq_true'] at h1
    obtain ⟨⟨⟨a1, a2⟩, a3⟩, a4⟩ := h1
    cases m <;> simp_all
  rw [if_neg h1]
  have h1' : ∃ m, r.has m = true := by
    cases g1 : r.has .get with
    | true => exact ⟨_, g1⟩
    | false =>
      cases g2 : r.has .put with
      | true => exact ⟨_, g2⟩
      | false =>
        cases g3 : r.has .post with
        | true => exact ⟨_, g3⟩
        | false =>
          cases g4 : r.has .delete with
          | true => exact ⟨_, g4⟩
          | false => exact absurd (by rw [g1, g2, g3, g4]; rfl) h1
  by_cases h2 : (r.periodic && r.period == 0) = true
  · rw [if_pos h2]
    refine ⟨false, t, rfl, ⟨(fun x => by cases x), ?_⟩, (fun x => by cases x), fun _ => rfl⟩
    rintro ⟨_, hp, _⟩
    simp only [Bool.and_eq_true, beq_iff_eq] at h2
    exact absurd h2.2 (hp h2.1)
  rw [if_neg h2]
  have h2' : r.periodic = true → r.period ≠ 0 := fun a e => h2 (by simp [a, e])
  by_cases h3 : t.app.any (·.id == r.id) = true
  · rw [if_pos h3]
    refine ⟨false, t, rfl, ⟨(fun x => by cases x), ?_⟩, (fun x => by cases x), fun _ => rfl⟩
    rintro ⟨_, _, hp, _⟩
    obtain ⟨y, hy, he⟩ := List.any_eq_true.1 h3
    exact absurd (by simpa using he) (hp y (by simp [hy]))
  rw [if_neg h3]
  by_cases h4 : t.del.any (·.id == r.id) = true
  · rw [if_pos h4]
    refine ⟨false, t, rfl, ⟨(fun x => by cases x), ?_⟩, (fun x => by cases x), fun _ => rfl⟩
    rintro ⟨_, _, hp, _⟩
    obtain ⟨y, hy, he⟩ := List.any_eq_true.1 h4
    exact absurd (by simpa using he) (hp y (by simp [hy]))
  rw [if_neg h4]
  have h34 : ∀ y ∈ t.app ++ t.del, y.id ≠ r.id := by
    intro y hy e
    rcases List.mem_append.1 hy with hy | hy
    · exact h3 (List.any_eq_true.2 ⟨y, hy, by simp [e]⟩)
    · exact h4 (List.any_eq_true.2 ⟨y, hy, by simp [e]⟩)
  obtain ⟨x, hx, hx'⟩ := inUse_spec c t r.uri hr r.dev hi.proper
  rw [hx]
  cases x with
  | true =>
    refine ⟨false, t, rfl, ⟨(fun x => by cases x), ?_⟩, (fun x => by cases x), fun _ => rfl⟩
    rintro ⟨_, _, _, hc, hn⟩
    rcases hx'.1 rfl with hs | ⟨y, hy, he⟩
    · rw [hc] at hs; cases hs
    · exact absurd he (hn y hy)
  | false =>
    refine ⟨true, _, rfl, ⟨fun _ => ⟨h1', h2', h34, ?_, ?_⟩, fun _ => rfl⟩, fun _ => rfl, fun x => by cases x⟩
    · cases hc : c.find r.uri r.dev with
      | none => rfl
      | some y => exact absurd (hx'.2 (Or.inl (by rw [hc]; rfl))) (by decide)
    · intro y hy he
      exact absurd (hx'.2 (Or.inr ⟨y, hy, he⟩)) (by decide)

example : addRes exCore empty (exRes 1 (b "/light")) = .ok (true, ⟨[exRes 1 (b "/light")], [], []⟩) := rfl

/-- The same for collections. -/
theorem add_collection_iff (c : Core) (l : List Op) (h : ∀ o ∈ l, o.Proper) (r : Res) (hr : Proper r.uri) :
    ∃ t, run c empty l = .ok t ∧ ∃ x u, addCol c t r = .ok (x, u) ∧
      (x = true ↔ (∀ y ∈ t.cols, y.id ≠ r.id) ∧ c.find r.uri r.dev = none ∧
        ∀ y ∈ t.app ++ t.del ++ t.cols, ¬ (y.dev = r.dev ∧ y.uri = r.uri)) ∧
      (x = true → u = { t with cols := t.cols ++ [r] }) ∧ (x = false → u = t) := by
  obtain ⟨t, ht, hi⟩ := run_inv c l empty (inv_empty c) h
  refine ⟨t, ht, ?_⟩
  unfold addCol
  by_cases h3 : t.cols.any (·.id == r.id) = true
  · rw [if_pos h3]
    refine ⟨false, t, rfl, ⟨(fun x => by cases x), ?_⟩, (fun x => by cases x), fun _ => rfl⟩
    rintro ⟨hp, _⟩
    obtain ⟨y, hy, he⟩ := List.any_eq_true.1 h3
    exact absurd (by simpa using he) (hp y hy)
  rw [if_neg h3]
  obtain ⟨x, hx, hx'⟩ := inUse_spec c t r.uri hr r.dev hi.proper
  rw [hx]
  cases x with
  | true =>
    refine ⟨false, t, rfl, ⟨(fun x => by cases x), ?_⟩, (fun x => by cases x), fun _ => rfl⟩
    rintro ⟨_, hc, hn⟩
    rcases hx'.1 rfl with hs | ⟨y, hy, he⟩
    · rw [hc] at hs; cases hs
    · exact absurd he (hn y hy)
  | false =>
    refine ⟨true, _, rfl, ⟨fun _ => ⟨?_, ?_, ?_⟩, fun _ => rfl⟩, fun _ => rfl, fun x => by cases x⟩
    · intro y hy e
      exact h3 (List.any_eq_true.2 ⟨y, hy, by simp [e]⟩)
    · cases hc : c.find r.uri r.dev with
      | none => rfl
      | some y => exact absurd (hx'.2 (Or.inl (by rw [hc]; rfl))) (by decide)
    · intro y hy he
      exact absurd (hx'.2 (Or.inr ⟨y, hy, he⟩)) (by decide)

/-- A resource or collection that is registered is found by its path, with or
without the slash in front, after every history. -/
theorem found_by_uri (c : Core) (l : List Op) (h : ∀ o ∈ l, o.Proper) :
    ∃ t, run c empty l = .ok t ∧ ∀ r ∈ t.app ++ t.cols, ∀ p, r.uri = slash :: p → p ≠ [] →
      ∀ after, lookup c t p after r.dev = .ok (some r) ∧ lookup c t (slash :: p) after r.dev = .ok (some r) := by
  obtain ⟨t, ht, hi⟩ := run_inv c l empty (inv_empty c) h
  refine ⟨t, ht, ?_⟩
  intro r hr p hp hne after
  exact ⟨lookup_complete_aux c t hi after r hr p hp hne p (Or.inl rfl),
    lookup_complete_aux c t hi after r hr p hp hne _ (Or.inr rfl)⟩

example : lookup exCore ⟨[exRes 1 (b "/light"), exRes 2 (b "/lamp")], [], []⟩ (b "lamp") [] 0 =
    .ok (some (exRes 2 (b "/lamp"))) := rfl

/-- What is found by a path is a resource of the framework with that URI, or is
registered on the device and its URI is the path up to leading slashes. -/
theorem lookup_sound (c : Core) (l : List Op) (h : ∀ o ∈ l, o.Proper) :
    ∃ t, run c empty l = .ok t ∧ ∀ uri after dev r, lookup c t uri after dev = .ok (some r) →
      c.find uri dev = some r ∨
      (c.find uri dev = none ∧ r ∈ t.app ++ t.cols ∧ r.dev = dev ∧ bare r.uri = bare uri) := by
  obtain ⟨t, ht, hi⟩ := run_inv c l empty (inv_empty c) h
  refine ⟨t, ht, ?_⟩
  intro uri after dev r hl
  rcases lookup_sound_aux c t hi uri after dev r hl with h | ⟨hc, hm, hd, hu⟩
  · exact Or.inl h
  · refine Or.inr ⟨hc, hm, hd, ?_⟩
    rcases hu with hu | hu
    · have hb : ∀ u : Bytes, bare (slash :: strip1 u) = bare u := by
        intro u
        cases u with
        | nil => rfl
        | cons x v =>
          by_cases hx : x = slash
          · subst hx; simp [strip1]
          · simp [strip1, bare, hx]
      rw [hu, hb]
    · have hb : ∀ u : Bytes, bare (slash :: bare u) = bare u := by
        intro u
        induction u with
        | nil => rfl
        | cons x v ih =>
          by_cases hx : x = slash
          · subst hx
            have : bare (slash :: v) = bare v := by simp [bare]
            rw [this, ih]
          · have : bare (x :: v) = x :: v := by simp [bare, hx]
            rw [this]
            simp [bare, hx]
      rw [hu, hb]

/-- Every resource of the framework is found by its URI, with or without the
slash, whatever applications register: the one of the device, or the shared one. -/
theorem framework_found (c : Core) (s : Reg) (u : Bytes) (shared : Bool) (after : Bytes) (dev : Nat)
    (h : (u, shared) ∈ coreTable c.con) (hd : dev < c.ndev) :
    lookup c s u after dev = .ok (some (c.res u (if shared then 0 else dev))) ∧
    lookup c s (u.drop 1) after dev = .ok (some (c.res u (if shared then 0 else dev))) := by
  have key : ∀ con u shared, (u, shared) ∈ coreTable con →
      (coreTable con).find? (fun e => strip1 e.1 == strip1 u) = some (u, shared) ∧
      strip1 (u.drop 1) = strip1 u := by
    intro con u shared h
    revert u shared
    cases con
    · have : ∀ p ∈ coreTable false,
          (coreTable false).find? (fun e => strip1 e.1 == strip1 p.1) = some p ∧
          strip1 (p.1.drop 1) = strip1 p.1 := by decide +kernel
      intro u sh h
      exact this (u, sh) h
    · have : ∀ p ∈ coreTable true,
          (coreTable true).find? (fun e => strip1 e.1 == strip1 p.1) = some p ∧
          strip1 (p.1.drop 1) = strip1 p.1 := by decide +kernel
      intro u sh h
      exact this (u, sh) h
  obtain ⟨hf, hs⟩ := key c.con u shared h
  have h1 : c.find u dev = some (c.res u (if shared then 0 else dev)) := by
    unfold Core.find
    rw [hf]
    cases shared <;> simp [hd]
  have h2 := find_strip c (u.drop 1) u dev hs
  unfold lookup
  rw [h2, h1]
  exact ⟨rfl, rfl⟩

example : (b "/oic/d", false) ∈ coreTable exCore.con := by decide

/-- The lookup is defined for every path with a character that is not a slash. -/
theorem lookup_total (c : Core) (s : Reg) (uri after : Bytes) (dev : Nat) (h : ∃ x ∈ uri, x ≠ slash) :
    ∃ x, lookup c s uri after dev = .ok x := by
  apply lookup_ok
  obtain ⟨x, hx, hn⟩ := h
  intro hb
  have hall : ∀ u : Bytes, bare u = [] → ∀ y ∈ u, y = slash := by
    intro u
    induction u with
    | nil => intro _ y hy; cases hy
    | cons c v ih =>
      intro hu y hy
      by_cases hc : c = slash
      · subst hc
        have : bare (slash :: v) = bare v := by simp [bare]
        rw [this] at hu
        rcases List.mem_cons.1 hy with rfl | hy
        · rfl
        · exact ih hu y hy
      · simp [bare, hc] at hu
  exact absurd (hall uri hb x hx) hn

example : ∃ x ∈ b "/light", x ≠ slash := ⟨108, by decide, by decide⟩

/-- UNDEFINED BEHAVIOUR: a request whose path consists of slashes only makes the
lookup among the collections read behind the end of the path, and with slashes to
the end of the message behind the message. -/
theorem slashes_ub : lookup exCore empty [slash] [] 0 = .ub := rfl

/-- A resource waiting for its deletion, or deleted, is not found. -/
theorem deleted_not_found (c : Core) (l : List Op) (h : ∀ o ∈ l, o.Proper) (r : Res) (hr : Proper r.uri) :
    ∃ t, run c empty l = .ok t ∧ ∀ uri after dev x,
      (lookup c (delayedDelete t r) uri after dev = .ok (some x) ∨
        lookup c (deleteRes t r.id) uri after dev = .ok (some x)) →
      x.id = r.id → c.find uri dev = some x ∨ x ∈ t.cols := by
  obtain ⟨t, ht, hi⟩ := run_inv c l empty (inv_empty c) h
  refine ⟨t, ht, ?_⟩
  intro uri after dev x hx he
  have hnot : x ∉ t.app.filter (fun y => y.id != r.id) := by
    intro hm
    have := (List.mem_filter.1 hm).2
    simp [he] at this
  obtain ⟨t1, h1, i1⟩ := exec_inv c t hi (.later r) hr
  obtain ⟨t2, h2, i2⟩ := exec_inv c t hi (.delete r.id) trivial
  rcases hx with hx | hx
  · have e1 : t1 = delayedDelete t r := by cases h1; rfl
    rw [← e1] at hx
    rcases lookup_sound_aux c t1 i1 uri after dev x hx with h | ⟨_, hm, _⟩
    · exact Or.inl h
    · right
      rw [e1] at hm
      rcases List.mem_append.1 hm with hm | hm
      · exact absurd hm hnot
      · exact hm
  · have e2 : t2 = deleteRes t r.id := by cases h2; rfl
    rw [← e2] at hx
    rcases lookup_sound_aux c t2 i2 uri after dev x hx with h | ⟨_, hm, _⟩
    · exact Or.inl h
    · right
      rw [e2] at hm
      rcases List.mem_append.1 hm with hm | hm
      · exact absurd hm hnot
      · exact hm

example : lookup exCore (delayedDelete ⟨[exRes 1 (b "/light")], [], []⟩ (exRes 1 (b "/light"))) (b "light") [] 0 =
    .ok none := rfl

/-- The URI of a resource waiting for its deletion cannot be taken: adding a
resource or collection with it fails and changes nothing. -/
theorem waiting_reserved (c : Core) (l : List Op) (h : ∀ o ∈ l, o.Proper) (r y : Res) (hr : Proper r.uri)
    (hy : y.uri = r.uri) (hd : y.dev = r.dev) :
    ∃ t, run c empty (l ++ [.later r]) = .ok t ∧ (r ∈ t.del →
      addRes c t y = .ok (false, t) ∧ addCol c t y = .ok (false, t)) := by
  have hp : ∀ o ∈ l ++ [Op.later r], o.Proper := by
    intro o ho
    rcases List.mem_append.1 ho with ho | ho
    · exact h o ho
    · simp only [List.mem_cons, List.not_mem_nil, or_false] at ho
      rw [ho]; exact hr
  obtain ⟨t, ht, x, u, hx, hiff, ht1, ht2⟩ := add_iff c (l ++ [.later r]) hp y (by rw [hy]; exact hr)
  obtain ⟨t', ht', x', u', hx', hiff', ht1', ht2'⟩ :=
    add_collection_iff c (l ++ [.later r]) hp y (by rw [hy]; exact hr)
  rw [ht] at ht'
  cases ht'
  refine ⟨t, ht, fun hm => ?_⟩
  have h1 : x = false := by
    cases x with
    | false => rfl
    | true => exact absurd ⟨hd.symm, hy.symm⟩ ((hiff.1 rfl).2.2.2.2 r (by simp [hm]))
  have h2 : x' = false := by
    cases x' with
    | false => rfl
    | true => exact absurd ⟨hd.symm, hy.symm⟩ ((hiff'.1 rfl).2.2 r (by simp [hm]))
  rw [hx, hx', h1, h2, ht2 h1, ht2' h2]
  exact ⟨rfl, rfl⟩

example : (run exCore empty ([.add (exRes 1 (b "/light"))] ++ [.later (exRes 1 (b "/light"))])).bind
    (fun t => (addRes exCore t (exRes 2 (b "/light"))).bind fun x => .ok x.1) = .ok false := by
  decide +kernel

/-! ### Refusing and running -/

/-- The surroundings of the examples: all is granted, `/light` answers 2.05 with
eight bytes and changes on POST. -/
def exEnv : Env where
  core := exCore
  acl := fun _ _ => true
  di := fun _ => b "11111111-1111-1111-1111-111111111111"
  decode := fun _ => .ok
  alloc := true
  handle := fun _ _ _ => ⟨true, 69, 8, ocfCbor, false, none⟩
  etag := fun _ _ => 0
  noBatch := fun _ => false
  obsAlloc := true
  pollAlloc := true
  linksOk := fun _ => true
  observing := false

/-- A request of the examples. -/
def exReq (m : Method) (path query : Bytes) : Req where
  method := m
  path := path
  after := [255]
  query := query
  cf := undef
  accept := undef
  observe := none
  etag := []
  dev := 0
  mcast := false

/-- The registered resources of the examples. -/
def exReg : Reg := ⟨[exRes 1 (b "/light")], [], []⟩

/-- A request that is refused is answered with exactly the code of the reason that
comes first, and nothing else happens; if it came by multicast nothing is sent.
The reasons in order: no such resource (4.04), an interface that the resource does
not have or that does not allow the method (4.03), access denied (4.01), a content
format that cannot be read (4.00), no handler for the method (4.05). -/
theorem refused_outcome (e : Env) (s : Reg) (q : Req) (st : Stage) (res : Option Res) (i : BitVec 32) (code : Nat)
    (hl : lookup e.core s q.path q.after q.dev = .ok res)
    (hd : (e.di q.dev).length = 36) (hv : q.mcast = true → DiValued q.query)
    (hi : ∀ r, res = some r → chosen q.query r.dflt i) (hr : Refused e q res i (some code)) :
    serve e s q st = .ok (if q.mcast then ⟨none, [], .nothing⟩ else ⟨none, [], .msg code 0 none none []⟩) := by
  have hi' : ∀ r, res = some r → i = ifaceOf q r := fun r h =>
    chosen_unique _ _ _ _ (hi r h) (ifaceOf_chosen q r)
  have hm := refused_unique e q res i _ _ (header_refused e q res i hi') hr
  unfold serve
  rw [hl]
  show (header e q res).bind _ = _
  by_cases hme : meant e q
  · rw [header_meant e q res hd hv hme, hm]
    cases hmc : q.mcast <;> rfl
  · rw [header_drop e q res hd hv hme]
    have : q.mcast = true := by
      cases h : q.mcast with
      | true => rfl
      | false => exact absurd (fun x => by rw [h] at x; cases x) hme
    rw [this]
    rfl

example : serve exEnv exReg (exReq .delete (b "light") []) (.complete []) = .ok (plain 133) := rfl
example : serve exEnv exReg (exReq .get (b "lamp") []) (.complete []) = .ok (plain 132) := rfl
example : serve exEnv exReg (exReq .get (b "light") (b "if=oic.if.ll")) (.complete []) = .ok (plain 131) := by
  rfl

/-- A multicast request that names other devices has no effect and no answer. -/
theorem other_device_silent (e : Env) (s : Reg) (q : Req) (st : Stage) (res : Option Res)
    (hl : lookup e.core s q.path q.after q.dev = .ok res)
    (hd : (e.di q.dev).length = 36) (hv : DiValued q.query) (hm : q.mcast = true)
    (h : ¬ selects (e.di q.dev) q.query) : serve e s q st = .ok ⟨none, [], .nothing⟩ := by
  unfold serve
  rw [hl]
  show (header e q res).bind _ = _
  rw [header_drop e q res hd (fun _ => hv) (fun x => h (x hm))]
  rfl

example : serve exEnv exReg { exReq .get (b "light") (b "di=22222222-1111-1111-1111-111111111111") with mcast := true }
    (.complete []) = .ok ⟨none, [], .nothing⟩ := by rfl

/-- The handler of a resource runs exactly if the path leads to the resource and
nothing stands against it: the interface of the query (the default one if it names
none that is known) is one of the resource and allows the method, access is
granted, the content format can be read, there is a handler, a multicast request
means this device, the client's ETag is not the current one, there is memory, and
the payload can be decoded. It runs with the method and interface of the request. -/
theorem handler_runs_iff (e : Env) (s : Reg) (q : Req) (p : Bytes) (res : Option Res)
    (hl : lookup e.core s q.path q.after q.dev = .ok res)
    (hd : (e.di q.dev).length = 36) (hv : q.mcast = true → DiValued q.query) :
    ∃ x, serve e s q (.complete p) = .ok x ∧
      ∀ r m i, x.ran = some (r, m, i) ↔ res = some r ∧ m = q.method ∧ Runs e q r i p := by
  unfold serve
  rw [hl]
  show ∃ x, (header e q res).bind _ = _ ∧ _
  by_cases hme : meant e q
  · rw [header_meant e q res hd hv hme]
    cases hm : maskRefusal (headerMask e q res) with
    | some c =>
      have hno : ∀ r i, res = some r → ¬ Runs e q r i p := by
        intro r i hr hR
        have hi : i = ifaceOf q r := chosen_unique _ _ _ _ hR.iface (ifaceOf_chosen q r)
        subst hr
        have := refused_unique e q (some r) i _ _
          (header_refused e q (some r) i (fun r' h => by cases h; exact hi)) hR.allowed
        rw [hm] at this
        cases this
      refine ⟨if q.mcast then ⟨none, [], .nothing⟩ else plain c, by cases q.mcast <;> rfl, ?_⟩
      intro r m i
      constructor
      · intro h
        cases hmc : q.mcast <;> rw [hmc] at h <;> cases h
      · rintro ⟨h1, _, h3⟩
        exact absurd h3 (hno r i h1)
    | none =>
      cases res with
      | none => cases hm
      | some r0 =>
        refine ⟨entity e q r0 p, rfl, ?_⟩
        have hR0 := header_refused e q (some r0) (ifaceOf q r0) (fun r' h => by cases h; rfl)
        rw [hm] at hR0
        have hhas : (r0.coll = true ∨ r0.has q.method = true) ∧ readable q.cf := by
          cases hR0 with
          | allowed _ _ _ _ hc hmm => exact ⟨hmm, hc⟩
        have hez := etag_zero_iff e q r0 (ifaceOf q r0) hhas.1
        have hir := invoke_ran_iff e q r0 (ifaceOf q r0) p hhas.1 ((cf_iff q.cf).2 hhas.2)
        intro r m i
        rw [entity_ran]
        constructor
        · intro h
          by_cases hz : (setEtag e q r0 (ifaceOf q r0)).1.zero = true
          · rw [if_pos hz] at h
            have hs : (invoke e q r0 (ifaceOf q r0) p).2.isSome = true := by
              cases hh : (invoke e q r0 (ifaceOf q r0) p).2 with
              | none => rw [hh] at h; cases h
              | some _ => rfl
            have he : (r0, q.method, ifaceOf q r0) = (r, m, i) := by
              cases hh : (invoke e q r0 (ifaceOf q r0) p).2 with
              | none => rw [hh] at h; cases h
              | some _ => rw [hh] at h; injection h
            injection he with e1 e2
            injection e2 with e2 e3
            subst e1 e2 e3
            exact ⟨rfl, rfl, ⟨ifaceOf_chosen q r0, hR0, hme, (hez.1 hz).1, (hez.1 hz).2,
              (hir.1 hs).1, (hir.1 hs).2⟩⟩
          · rw [if_neg hz] at h
            cases h
        · rintro ⟨h1, h2, hR⟩
          injection h1 with h1
          subst h1 h2
          have hi : i = ifaceOf q r0 := chosen_unique _ _ _ _ hR.iface (ifaceOf_chosen q r0)
          subst hi
          rw [if_pos (hez.2 ⟨hR.batch, hR.etag⟩)]
          have hs := hir.2 ⟨hR.memory, hR.payload⟩
          cases hh : (invoke e q r0 (ifaceOf q r0) p).2 with
          | none => rw [hh] at hs; cases hs
          | some _ => rfl
  · rw [header_drop e q res hd hv hme]
    refine ⟨⟨none, [], .nothing⟩, rfl, ?_⟩
    intro r m i
    constructor
    · intro h; cases h
    · rintro ⟨_, _, hR⟩
      exact absurd hR.device hme

example : (serve exEnv exReg (exReq .get (b "light") (b "if=oic.if.baseline")) (.complete [])).bind
    (fun x => .ok (x.ran.map fun y => (y.1.id, y.2.1, y.2.2))) = .ok (some (1, .get, 2)) := by rfl

/-- UNDEFINED BEHAVIOUR: a multicast request with a `di` key without a value makes
the server compute with a null pointer. -/
theorem di_ub : serve exEnv exReg { exReq .get (b "light") (b "di") with mcast := true } (.complete []) = .ub := by
  rfl

/-- FALSE: a request that names an interface the resource does not have is
refused. A name that is not known at all selects the default interface. -/
theorem unknown_if_false : ¬ ∀ (e : Env) (s : Reg) (q : Req) (p : Bytes) (x : Result) (r : Res) (n : Bytes),
    lookup e.core s q.path q.after q.dev = .ok (some r) → named q.query = some n →
    (∀ i : Iface, r.ifaces &&& i.bit = i.bit → n ≠ i.name) →
    serve e s q (.complete p) = .ok x → x.ran = none := by
  intro h
  have := h exEnv exReg (exReq .get (b "light") (b "if=oic.if.none")) [] _ (exRes 1 (b "/light"))
    (b "oic.if.none") rfl rfl (by intro i _; cases i <;> decide) rfl
  cases this

/-- A named interface that is known and that the resource does not have, or that
does not allow the method, never runs a handler. Part of the full claim, which is
false for names that are not known (`unknown_if_false`). -/
theorem foreign_iface_refused_partial (e : Env) (s : Reg) (q : Req) (p : Bytes) (r : Res) (i : Iface)
    (hl : lookup e.core s q.path q.after q.dev = .ok (some r))
    (hd : (e.di q.dev).length = 36) (hv : q.mcast = true → DiValued q.query)
    (hn : named q.query = some i.name)
    (hx : ¬ (r.ifaces &&& i.bit = i.bit ∧ allows i q.method)) :
    serve e s q (.complete p) =
      .ok (if q.mcast then ⟨none, [], .nothing⟩ else ⟨none, [], .msg 131 0 none none []⟩) := by
  apply refused_outcome e s q _ (some r) i.bit 131 hl hd hv
  · intro r' _
    exact Or.inl ⟨i, hn, rfl⟩
  · apply Refused.iface
    rintro ⟨j, hj, hs⟩
    have := bit_inj i j hj
    subst this
    exact hx hs

example : named (b "x=1&if=oic.if.ll") = some Iface.ll.name := by decide +kernel

/-! ### Effects -/

/-- Only answers below 4.00 (or none) come with a change of the observers or with
notifications. -/
theorem finish_error (e : Env) (q : Req) (r : Res) (i : BitVec 32) (ok : Bool) (code len cf : Nat) (sep : Bool)
    (etag : Bytes) (c l : Nat) (f o : Option Nat) (t : Bytes)
    (h : (finish e q r i ok code len cf sep etag).2 = .msg c l f o t) :
    c = code ∧ sep = false ∧ code ≠ 0 ∧ code ≠ clearTx ∧ (q.mcast = true → code < c400) ∧
      (c400 ≤ c → (finish e q r i ok code len cf sep etag).1 = []) := by
  unfold finish respond at h ⊢
  cases hs : sep with
  | true => rw [hs] at h; cases h
  | false =>
    rw [hs] at h
    simp only [Bool.false_eq_true, if_false] at h ⊢
    by_cases hm : (q.mcast && decide (code ≥ c400)) = true
    · rw [if_pos hm] at h
      rw [if_pos rfl] at h
      cases h
    · rw [if_neg hm] at h ⊢
      by_cases hc : code = clearTx
      · rw [if_pos hc] at h; cases h
      · rw [if_neg hc] at h ⊢
        by_cases h0 : code = 0
        · rw [if_pos h0] at h; cases h
        · rw [if_neg h0] at h ⊢
          injection h with h1 _ _ _ _
          refine ⟨h1.symm, trivial, h0, hc, ?_, ?_⟩
          · intro hq
            rw [hq] at hm
            simp only [Bool.true_and, decide_eq_true_eq] at hm
            omega
          · intro hge
            have hlt : ¬ code < c400 := by omega
            simp [hlt]

/-- A request that is answered with an error changes nothing: no observer is added
or removed, no periodic callback, no notification. -/
theorem error_no_effect (e : Env) (s : Reg) (q : Req) (st : Stage) (x : Result) (c l : Nat) (f o : Option Nat)
    (t : Bytes) (h : serve e s q st = .ok x) (hr : x.reply = .msg c l f o t) (hc : 128 ≤ c) : x.eff = [] := by
  unfold serve at h
  cases h1 : lookup e.core s q.path q.after q.dev with
  | ub => rw [h1] at h; cases h
  | ok res =>
    rw [h1] at h
    replace h : (header e q res).bind _ = Out.ok x := h
    cases h2 : header e q res with
    | ub => rw [h2] at h; cases h
    | ok v =>
      rw [h2] at h
      cases v with
      | drop => cases h; rfl
      | refuse c => cases h; rfl
      | go =>
        cases st with
        | answered c => cases h; rfl
        | reset => cases h; rfl
        | complete p =>
          cases res with
          | none => cases h; rfl
          | some r =>
            cases h
            exact (finish_error e q r _ _ _ _ _ _ _ c l f o t hr).2.2.2.2.2 hc

example : (serve { exEnv with handle := fun _ _ _ => ⟨true, 128, 0, ocfCbor, false, none⟩ } exReg
    { exReq .get (b "light") [] with observe := some 0 } (.complete [])).bind (fun x => .ok x.eff) = .ok [] := by
  rfl

/-- A multicast request is never answered with an error, whatever the handler
does, provided its payload fits one message. -/
theorem multicast_no_error (e : Env) (s : Reg) (q : Req) (p : Bytes) (x : Result) (c l : Nat) (f o : Option Nat)
    (t : Bytes) (h : serve e s q (.complete p) = .ok x) (hm : q.mcast = true) (hr : x.reply = .msg c l f o t) :
    c < 128 := by
  unfold serve at h
  cases h1 : lookup e.core s q.path q.after q.dev with
  | ub => rw [h1] at h; cases h
  | ok res =>
    rw [h1] at h
    replace h : (header e q res).bind _ = Out.ok x := h
    cases h2 : header e q res with
    | ub => rw [h2] at h; cases h
    | ok v =>
      rw [h2] at h
      cases v with
      | drop => cases h; cases hr
      | refuse c' =>
        exfalso
        unfold header at h2
        rw [hm] at h2
        cases h3 : (if q.query.length ≠ 0 && true then diFilter (e.di q.dev) q.query else .ok true : Out Bool) with
        | ub => rw [h3] at h2; cases h2
        | ok y =>
          rw [h3] at h2
          cases y with
          | false => cases h2
          | true =>
            replace h2 : (if (true && decide ((headerMask e q res).status ≥ c400)) = true then Out.ok Verdict.drop
              else if (headerMask e q res).success = true then Out.ok Verdict.go
              else Out.ok (Verdict.refuse (headerMask e q res).status)) = Out.ok (Verdict.refuse c') := h2
            cases hs : (headerMask e q res).success with
            | true =>
              rw [hs] at h2
              have := status_lt _ hs
              rw [if_neg (by simp only [Bool.true_and, decide_eq_true_eq]; omega)] at h2
              cases h2
            | false =>
              rw [if_pos (by simpa using status_ge _ hs)] at h2
              cases h2
      | go =>
        cases res with
        | none => cases h; cases hr
        | some r =>
          cases h
          have := finish_error e q r _ _ _ _ _ _ _ c l f o t hr
          rw [this.1]
          exact this.2.2.2.2.1 hm

example : (serve { exEnv with handle := fun _ _ _ => ⟨true, 128, 0, ocfCbor, false, none⟩ } exReg
    { exReq .get (b "light") [] with mcast := true } (.complete [])) =
    .ok ⟨some (exRes 1 (b "/light"), .get, Iface.rw.bit), [], .nothing⟩ := by rfl

/-- FALSE: a multicast request is never answered with a reset. A handler that
sends no response makes the server answer every request, also a multicast one, with
a RST message (over UDP). -/
theorem multicast_rst_false : ¬ ∀ (e : Env) (s : Reg) (q : Req) (p : Bytes) (x : Result),
    serve e s q (.complete p) = .ok x → q.mcast = true → x.reply ≠ .reset := by
  intro h
  exact h { exEnv with handle := fun _ _ _ => ⟨true, 0, 0, ocfCbor, false, none⟩ } exReg
    { exReq .get (b "light") [] with mcast := true } [] _ rfl rfl rfl

/-! ### Observing -/

theorem observes_append (x : Bool) (l m : List Eff) : observes x (l ++ m) = observes (observes x l) m := by
  induction l generalizing x with
  | nil => rfl
  | cons a l ih => cases a <;> simp [observes, ih]

theorem respond_observes (q : Req) (r : Res) (i : BitVec 32) (code len cf : Nat) (sep : Bool) (etag : Bytes)
    (obs : Option Nat × Option Nat) (x : Bool) :
    observes x (respond q r i code len cf sep etag obs).1 = x := by
  unfold respond
  cases sep with
  | true => rfl
  | false =>
    simp only [Bool.false_eq_true, if_false]
    by_cases h1 : code = clearTx
    · rw [if_pos h1]; rfl
    · rw [if_neg h1]
      have : ∀ l : List Eff, (l = [] ∨ (∃ a b, l = [.defaults a b]) ∨ ∃ a, l = [.changed a]) → observes x l = x := by
        rintro l (rfl | ⟨a, b, rfl⟩ | ⟨a, rfl⟩) <;> rfl
      by_cases h0 : code = 0
      · rw [if_pos h0]
        apply this
        dsimp only
        split
        · split
          · exact Or.inr (Or.inl ⟨_, _, rfl⟩)
          · exact Or.inr (Or.inr ⟨_, rfl⟩)
        · exact Or.inl rfl
      · rw [if_neg h0]
        apply this
        dsimp only
        split
        · split
          · exact Or.inr (Or.inl ⟨_, _, rfl⟩)
          · exact Or.inr (Or.inr ⟨_, rfl⟩)
        · exact Or.inl rfl

/-- The observation: with memory for the observer the client observes afterwards
exactly if the answer carries Observe 0, or it was and nothing changed. -/
theorem observation_spec (e : Env) (q : Req) (r : Res) (iq : BitVec 32) (ho : e.obsAlloc = true) :
    (observes false (observation e q r iq).2.2 = true ↔ (observation e q r iq).2.1 = some 0) ∧
    (observes false (observation e q r iq).2.2 = true ↔ (observation e q r iq).1 = some 0) ∧
    ((observation e q r iq).2.1 = some 0 → observes true (observation e q r iq).2.2 = true) ∧
    ((observation e q r iq).2.1 = none ∨ (observation e q r iq).2.1 = some 0) := by
  unfold observation
  cases hq : (if r.observable then q.observe else none) with
  | none => simp [observes]
  | some n =>
    match n with
    | 0 =>
      dsimp only
      unfold addObservation
      rw [ho]
      simp only [Bool.true_and, if_true]
      cases hp : r.periodic <;> cases hpa : e.pollAlloc <;> cases hc : r.coll <;> cases hlk : e.linksOk r <;>
        simp [observes]
    | 1 =>
      dsimp only
      cases e.observing <;> cases r.periodic <;> simp [observes]
    | n + 2 => simp [observes]

theorem finish_observe (e : Env) (q : Req) (r : Res) (i : BitVec 32) (ok : Bool) (code len cf : Nat) (sep : Bool)
    (etag : Bytes) (ho : e.obsAlloc = true) :
    (∀ c l f o t, (finish e q r i ok code len cf sep etag).2 = .msg c l f o t →
      (observes false (finish e q r i ok code len cf sep etag).1 = true ↔ o = some 0) ∧
      (o = some 0 → observes true (finish e q r i ok code len cf sep etag).1 = true) ∧
      (o = none ∨ o = some 0)) ∧
    (∀ o, (finish e q r i ok code len cf sep etag).2 = .later o →
      (observes false (finish e q r i ok code len cf sep etag).1 = true ↔ o = some 0)) := by
  have hobs : ∀ x, observes x (finish e q r i ok code len cf sep etag).1 =
      observes x (if ok && q.method == .get && decide (code < c400)
        then observation e q r (ifaceQuery q.query) else (none, none, [])).2.2 := by
    intro x
    unfold finish
    dsimp only
    rw [observes_append, respond_observes]
  rw [hobs, hobs]
  have key := observation_spec e q r (ifaceQuery q.query) ho
  have hspec : ∀ z : Option Nat × Option Nat × List Eff,
      z = (if ok && q.method == .get && decide (code < c400)
        then observation e q r (ifaceQuery q.query) else (none, none, [])) →
      (observes false z.2.2 = true ↔ z.2.1 = some 0) ∧ (observes false z.2.2 = true ↔ z.1 = some 0) ∧
      (z.2.1 = some 0 → observes true z.2.2 = true) ∧ (z.2.1 = none ∨ z.2.1 = some 0) := by
    intro z hz
    by_cases h : (ok && q.method == .get && decide (code < c400)) = true
    · rw [if_pos h] at hz; subst hz; exact key
    · rw [if_neg h] at hz; subst hz; simp [observes]
  have hz := hspec _ rfl
  constructor
  · intro c l f o t h
    have ho' : o = (if ok && q.method == .get && decide (code < c400)
        then observation e q r (ifaceQuery q.query) else (none, none, [])).2.1 := by
      unfold finish respond at h
      cases sep with
      | true => cases h
      | false =>
        simp only [Bool.false_eq_true, if_false] at h
        revert h
        generalize (if (q.mcast && decide (code ≥ c400)) = true then clearTx else code) = code'
        intro h
        by_cases h1 : code' = clearTx
        · rw [if_pos h1] at h; cases h
        · rw [if_neg h1] at h
          by_cases h0 : code' = 0
          · rw [if_pos h0] at h; cases h
          · rw [if_neg h0] at h
            injection h with _ _ _ h4 _
            exact h4.symm
    rw [ho']
    exact ⟨hz.1, hz.2.2.1, hz.2.2.2⟩
  · intro o h
    have ho' : o = (if ok && q.method == .get && decide (code < c400)
        then observation e q r (ifaceQuery q.query) else (none, none, [])).1 := by
      unfold finish respond at h
      cases sep with
      | true =>
        simp only [if_true] at h
        injection h with h
        exact h.symm
      | false =>
        simp only [Bool.false_eq_true, if_false] at h
        revert h
        generalize (if (q.mcast && decide (code ≥ c400)) = true then clearTx else code) = code'
        intro h
        by_cases h1 : code' = clearTx
        · rw [if_pos h1] at h; cases h
        · rw [if_neg h1] at h
          by_cases h0 : code' = 0
          · rw [if_pos h0] at h; cases h
          · rw [if_neg h0] at h
            cases h
    rw [ho']
    exact hz.2.1

/-- FALSE: an answer with the Observe option means that the client was registered.
If there is no memory for the observer the answer carries it all the same. -/
theorem observe_claimed_false : ¬ ∀ (e : Env) (s : Reg) (q : Req) (p : Bytes) (x : Result) (c l : Nat)
    (f : Option Nat) (t : Bytes), serve e s q (.complete p) = .ok x → x.reply = .msg c l f (some 0) t →
    observes false x.eff = true := by
  intro h
  have := h { exEnv with obsAlloc := false } exReg { exReq .get (b "light") [] with observe := some 0 } []
    _ _ _ _ _ rfl rfl
  cases this

/-- FALSE: a client that gets no answer with the Observe option is not registered.
If the handler of the resource sends no response the client is registered and gets
a reset. -/
theorem observe_silent_false : ¬ ∀ (e : Env) (s : Reg) (q : Req) (p : Bytes) (x : Result),
    serve e s q (.complete p) = .ok x → x.reply = .reset → observes false x.eff = false := by
  intro h
  have := h { exEnv with handle := fun _ _ _ => ⟨true, 0, 0, ocfCbor, false, none⟩ } exReg
    { exReq .get (b "light") [] with observe := some 0 } [] _ rfl rfl
  cases this

/-- If the request is answered, at once or later, and there is memory for the
observer, then a client that did not observe does so afterwards exactly if the
answer carries Observe 0 (or it is kept for the separate response); and one that
did observe goes on doing so if the answer carries it. No other value is sent.
Part of the full claim, see `observe_claimed_false` and `observe_silent_false`. -/
theorem observe_partial (e : Env) (s : Reg) (q : Req) (p : Bytes) (x : Result)
    (h : serve e s q (.complete p) = .ok x) (ho : e.obsAlloc = true) :
    (∀ c l f o t, x.reply = .msg c l f o t →
      (observes false x.eff = true ↔ o = some 0) ∧ (o = some 0 → observes true x.eff = true) ∧
      (o = none ∨ o = some 0)) ∧
    (∀ o, x.reply = .later o → (observes false x.eff = true ↔ o = some 0)) := by
  have hnone : ∀ y : Result, y.eff = [] → (∀ c l f o t, y.reply = .msg c l f o t → o = none) →
      (∀ o, y.reply ≠ .later o) →
      (∀ c l f o t, y.reply = .msg c l f o t →
        (observes false y.eff = true ↔ o = some 0) ∧ (o = some 0 → observes true y.eff = true) ∧
        (o = none ∨ o = some 0)) ∧
      (∀ o, y.reply = .later o → (observes false y.eff = true ↔ o = some 0)) := by
    intro y he hr hl
    constructor
    · intro c l f o t h
      have := hr c l f o t h
      subst this
      rw [he]
      simp [observes]
    · intro o h
      exact absurd h (hl o)
  unfold serve at h
  cases h1 : lookup e.core s q.path q.after q.dev with
  | ub => rw [h1] at h; cases h
  | ok res =>
    rw [h1] at h
    replace h : (header e q res).bind _ = Out.ok x := h
    cases h2 : header e q res with
    | ub => rw [h2] at h; cases h
    | ok v =>
      rw [h2] at h
      cases v with
      | drop =>
        cases h
        exact hnone _ rfl (by intro c l f o t h; cases h) (by intro o h; cases h)
      | refuse c =>
        cases h
        exact hnone _ rfl (by intro c l f o t h; cases h; rfl) (by intro o h; cases h)
      | go =>
        cases res with
        | none =>
          cases h
          exact hnone _ rfl (by intro c l f o t h; cases h) (by intro o h; cases h)
        | some r =>
          cases h
          exact finish_observe e q r _ _ _ _ _ _ _ ho

example : (serve exEnv exReg { exReq .get (b "light") [] with observe := some 0 } (.complete [])).bind
    (fun x => .ok (x.eff, observes false x.eff)) = .ok ([.addObs 1 0], true) := by rfl

/-- FALSE: a client that cancels its observation with Observe 1 is no observer
afterwards. If the handler answers with an error the observer stays. -/
theorem cancel_error_false : ¬ ∀ (e : Env) (s : Reg) (q : Req) (p : Bytes) (x : Result),
    serve e s q (.complete p) = .ok x → q.method = .get → q.observe = some 1 → e.observing = true →
    x.ran ≠ none → observes true x.eff = false := by
  intro h
  have := h { exEnv with observing := true, handle := fun _ _ _ => ⟨true, 163, 0, ocfCbor, false, none⟩ } exReg
    { exReq .get (b "light") [] with observe := some 1 } [] _ rfl rfl rfl rfl (by intro h; cases h)
  cases this

theorem codeOf_bad {m : Mask} {a : Option Act} (h : m.zero = false) : codeOf m a = m.status := by
  cases a <;> simp [codeOf, h]

/-- A client that cancels its observation of an observable resource with Observe 1
and gets an answer below 4.00 is no observer afterwards. Part of the full claim,
see `cancel_error_false`. -/
theorem cancel_partial (e : Env) (s : Reg) (q : Req) (p : Bytes) (x : Result) (r : Res) (c l : Nat)
    (f o : Option Nat) (t : Bytes)
    (h : serve e s q (.complete p) = .ok x) (hl : lookup e.core s q.path q.after q.dev = .ok (some r))
    (hm : q.method = .get) (ho : q.observe = some 1) (hr : r.observable = true)
    (hx : x.reply = .msg c l f o t) (hc : c < 128) : observes e.observing x.eff = false ∧ o = none := by
  unfold serve at h
  rw [hl] at h
  replace h : (header e q (some r)).bind _ = Out.ok x := h
  cases h2 : header e q (some r) with
  | ub => rw [h2] at h; cases h
  | ok v =>
    rw [h2] at h
    cases v with
    | drop => cases h; cases hx
    | refuse c' =>
      exfalso
      cases h
      unfold header at h2
      cases h3 : (if q.query.length ≠ 0 && q.mcast then diFilter (e.di q.dev) q.query else .ok true : Out Bool) with
      | ub => rw [h3] at h2; cases h2
      | ok y =>
        rw [h3] at h2
        cases y with
        | false => cases h2
        | true =>
          replace h2 : (if (q.mcast && decide ((headerMask e q (some r)).status ≥ c400)) = true then Out.ok Verdict.drop
            else if (headerMask e q (some r)).success = true then Out.ok Verdict.go
            else Out.ok (Verdict.refuse (headerMask e q (some r)).status)) = Out.ok (Verdict.refuse c') := h2
          by_cases hd : (q.mcast && decide ((headerMask e q (some r)).status ≥ c400)) = true
          · rw [if_pos hd] at h2; cases h2
          · rw [if_neg hd] at h2
            cases hs : (headerMask e q (some r)).success with
            | true => rw [hs] at h2; cases h2
            | false =>
              rw [hs] at h2
              cases h2
              have := status_ge _ hs
              unfold plain at hx
              injection hx with hx _ _ _ _
              unfold c400 at this
              omega
    | go =>
      cases h
      replace hx : (finish e q r _ _ _ _ _ _ _).2 = _ := hx
      have hf := finish_error e q r _ _ _ _ _ _ _ c l f o t hx
      show observes e.observing (finish e q r _ _ _ _ _ _ _).1 = false ∧ o = none
      generalize hok : (if (setEtag e q r (ifaceOf q r)).1.zero then invoke e q r (ifaceOf q r) p
        else ((setEtag e q r (ifaceOf q r)).1, none)) = z at hx hf ⊢
      have hlt : codeOf z.1 z.2 < c400 := by
        rw [← hf.1]
        exact hc
      have hsucc : z.1.success = true := by
        cases hs : z.1.success with
        | true => rfl
        | false =>
          exfalso
          have hz : z.1.zero = false := by
            cases hzz : z.1.zero with
            | false => rfl
            | true =>
              exfalso
              unfold Mask.zero at hzz
              unfold Mask.success at hs
              simp only [Bool.and_eq_true, Bool.not_eq_true'] at hzz
              obtain ⟨⟨⟨⟨⟨⟨a1, a2⟩, a3⟩, a4⟩, a5⟩, a6⟩, a7⟩ := hzz
              rw [a2, a3, a4, a5, a6, a7] at hs
              cases hs
          rw [codeOf_bad hz] at hlt
          have := status_ge _ hs
          omega
      have hobs : observation e q r (ifaceQuery q.query) =
          (some 1, none, if e.observing then .rmObs :: (if r.periodic then [.unpoll r.id] else []) else []) := by
        unfold observation
        rw [hr, ho]
        rfl
      unfold finish at hx ⊢
      rw [hsucc, hm] at hx ⊢
      have hd := decide_eq_true hlt
      rw [hd] at hx ⊢
      simp only [beq_self_eq_true, Bool.and_self, if_true] at hx ⊢
      rw [hobs] at hx ⊢
      dsimp only at hx ⊢
      constructor
      · rw [observes_append, respond_observes]
        cases e.observing with
        | false => rfl
        | true => cases r.periodic <;> rfl
      · unfold respond at hx
        rw [hf.2.1] at hx
        simp only [Bool.false_eq_true, if_false] at hx
        revert hx
        generalize (if (q.mcast && decide
          (codeOf z.1 z.2 ≥ c400)) = true
          then clearTx else
          codeOf z.1 z.2) = code'
        intro hx
        by_cases h1 : code' = clearTx
        · rw [if_pos h1] at hx; cases hx
        · rw [if_neg h1] at hx
          by_cases h0 : code' = 0
          · rw [if_pos h0] at hx; cases hx
          · rw [if_neg h0] at hx
            injection hx with _ _ _ h4 _
            exact h4.symm

example : (serve { exEnv with observing := true } exReg
    { exReq .get (b "light") [] with observe := some 1 } (.complete [])).bind
    (fun x => .ok (x.eff, observes true x.eff)) = .ok ([.rmObs], false) := by rfl

/-! ### Notifications -/

/-- A notification. -/
def note : Eff → Prop
  | .changed _ => True
  | .defaults _ _ => True
  | _ => False

theorem addObservation_eff (e : Env) (r : Res) (iq : BitVec 32) (ef : Eff) (h : ef ∈ (addObservation e r iq).2) :
    ¬ note ef := by
  unfold addObservation at h
  cases h1 : e.obsAlloc <;> cases h2 : r.periodic <;> cases h3 : e.pollAlloc <;> cases h4 : r.coll <;>
    cases h5 : e.linksOk r <;> simp [h1, h2, h3, h4, h5] at h <;>
    (rcases h with rfl | rfl) <;> exact id

theorem observation_eff (e : Env) (q : Req) (r : Res) (iq : BitVec 32) (ef : Eff)
    (h : ef ∈ (observation e q r iq).2.2) :
    ¬ note ef := by
  have hadd := addObservation_eff e r iq ef
  unfold observation at h
  cases hq : (if r.observable then q.observe else none) with
  | none => rw [hq] at h; cases h
  | some n =>
    rw [hq] at h
    match n, h with
    | 0, h =>
      dsimp only at h
      by_cases hx : (addObservation e r iq).1 = true
      · rw [if_pos hx] at h; exact hadd h
      · rw [if_neg hx] at h
        rcases List.mem_append.1 h with h | h
        · exact hadd h
        · simp only [List.mem_cons, List.not_mem_nil, or_false] at h
          subst h; exact id
    | 1, h =>
      cases h1 : e.observing <;> cases h2 : r.periodic <;> simp [h1, h2] at h <;>
        (rcases h with rfl | rfl) <;> exact id
    | n + 2, h => cases h

/-- Whenever a PUT or POST that ran the handler of a resource (not a collection)
is answered below 4.00, the observers of the resource are notified of a change (of
the defaults if the interface is one of the startup interfaces). And a
notification only follows such a request. -/
theorem change_notified (e : Env) (s : Reg) (q : Req) (p : Bytes) (x : Result) (r : Res)
    (h : serve e s q (.complete p) = .ok x) (hl : lookup e.core s q.path q.after q.dev = .ok (some r)) :
    (∀ c l f o t m i, x.ran = some (r, m, i) → r.coll = false → m = .put ∨ m = .post →
      x.reply = .msg c l f o t → c < 128 →
      x.eff = [if i = Iface.startup.bit ∨ i = Iface.revert.bit then .defaults r.id i else .changed r.id]) ∧
    (∀ k, (.changed k ∈ x.eff ∨ ∃ i, .defaults k i ∈ x.eff) →
      k = r.id ∧ r.coll = false ∧ (q.method = .put ∨ q.method = .post) ∧ x.ran.isSome = true ∧
      (x.reply = .reset ∨ ∃ c l f o t, x.reply = .msg c l f o t ∧ c < 128)) := by
  unfold serve at h
  rw [hl] at h
  replace h : (header e q (some r)).bind _ = Out.ok x := h
  have hempty : ∀ y : Result, y.ran = none → y.eff = [] →
      (∀ c l f o t m i, y.ran = some (r, m, i) → r.coll = false → m = .put ∨ m = .post →
        y.reply = .msg c l f o t → c < 128 →
        y.eff = [if i = Iface.startup.bit ∨ i = Iface.revert.bit then .defaults r.id i else .changed r.id]) ∧
      (∀ k, (.changed k ∈ y.eff ∨ ∃ i, .defaults k i ∈ y.eff) →
        k = r.id ∧ r.coll = false ∧ (q.method = .put ∨ q.method = .post) ∧ y.ran.isSome = true ∧
        (y.reply = .reset ∨ ∃ c l f o t, y.reply = .msg c l f o t ∧ c < 128)) := by
    intro y h1 h2
    constructor
    · intro c l f o t m i h; rw [h1] at h; cases h
    · intro k h
      rw [h2] at h
      rcases h with h | ⟨_, h⟩ <;> cases h
  cases h2 : header e q (some r) with
  | ub => rw [h2] at h; cases h
  | ok v =>
    rw [h2] at h
    cases v with
    | drop => cases h; exact hempty _ rfl rfl
    | refuse c => cases h; exact hempty _ rfl rfl
    | go =>
      cases h
      show (∀ c l f o t m i, (entity e q r p).ran = some (r, m, i) → _ → _ →
          (finish e q r _ _ _ _ _ _ _).2 = _ → _ → (finish e q r _ _ _ _ _ _ _).1 = _) ∧
        (∀ k, (_ ∈ (finish e q r _ _ _ _ _ _ _).1 ∨ ∃ i, _ ∈ (finish e q r _ _ _ _ _ _ _).1) →
          _ ∧ _ ∧ _ ∧ (entity e q r p).ran.isSome = true ∧ ((finish e q r _ _ _ _ _ _ _).2 = _ ∨
            ∃ c l f o t, (finish e q r _ _ _ _ _ _ _).2 = .msg c l f o t ∧ c < 128))
      rw [entity_ran]
      have hzdef : ∀ z, z = (if (setEtag e q r (ifaceOf q r)).1.zero then invoke e q r (ifaceOf q r) p
          else ((setEtag e q r (ifaceOf q r)).1, none)) → q.method = .put ∨ q.method = .post →
          z.2 = none → z.1.success = false := by
        intro z hz hmeth hnone
        have hne : q.method ≠ .get := by rcases hmeth with h | h <;> rw [h] <;> decide
        have hset : setEtag e q r (ifaceOf q r) = ({}, []) := by
          unfold setEtag
          rw [if_pos (by simp [hne])]
        rw [hset] at hz
        replace hz : z = invoke e q r (ifaceOf q r) p := hz
        subst hz
        unfold invoke at hnone ⊢
        cases ha : e.alloc with
        | false => rfl
        | true =>
          rw [ha] at hnone
          simp only [Bool.not_true, Bool.false_eq_true, if_false] at hnone ⊢
          by_cases hz : (payloadMask e q p).zero = true
          · rw [hz] at hnone ⊢
            simp only [Bool.not_true, Bool.false_eq_true, if_false] at hnone ⊢
            cases hcl : r.coll with
            | true => rw [hcl] at hnone; cases hnone
            | false =>
              rw [hcl] at hnone
              cases hh : r.has q.method with
              | true => rw [hh] at hnone; cases hnone
              | false => rfl
          · rw [if_pos (by simpa using hz)]
            unfold payloadMask at hz ⊢
            by_cases hp : p.length = 0
            · rw [if_pos hp] at hz; exact absurd rfl hz
            · rw [if_neg hp] at hz ⊢
              cases hcf : cfSupported q.cf with
              | false => rfl
              | true =>
                rw [hcf] at hz
                cases hdec : e.decode p <;> rw [hdec] at hz <;> first | exact absurd rfl hz | rfl
      have hz := hzdef _ rfl
      revert hz
      generalize (if (setEtag e q r (ifaceOf q r)).1.zero then invoke e q r (ifaceOf q r) p
        else ((setEtag e q r (ifaceOf q r)).1, none)) = z
      intro hz
      constructor
      · intro c l f o t m i hran hcol hm hrep hc
        have hf := finish_error e q r _ _ _ _ _ _ _ c l f o t hrep
        have hmi : m = q.method ∧ i = ifaceOf q r := by
          cases hz2 : z.2 with
          | none => rw [hz2] at hran; cases hran
          | some a => rw [hz2] at hran; cases hran; exact ⟨rfl, rfl⟩
        obtain ⟨rfl, rfl⟩ := hmi
        generalize hcode : codeOf z.1 z.2 = code
          at hf hrep ⊢
        have hlt : code < c400 := by rw [← hf.1]; exact hc
        have hnge : ¬ code ≥ c400 := by omega
        have hnget : (q.method == Method.get) = false := by rcases hm with h | h <;> rw [h] <;> rfl
        have hpp : (q.method == .put || q.method == .post) = true := by rcases hm with h | h <;> rw [h] <;> rfl
        unfold finish respond
        rw [hf.2.1, hnget, hcol]
        simp only [Bool.and_false, Bool.false_and, Bool.false_eq_true, if_false, List.nil_append]
        rw [decide_eq_false hnge]
        simp only [Bool.and_false, Bool.false_eq_true, if_false]
        rw [if_neg hf.2.2.2.1, if_neg hf.2.2.1, hpp, decide_eq_true hlt]
        simp only [Bool.not_false, Bool.and_self, if_true, Bool.or_eq_true, decide_eq_true_eq]
        split <;> rfl
      · intro k hk
        generalize hcode : codeOf z.1 z.2 = code
          at hk ⊢
        have hin : ∀ ef : Eff, (ef = .changed k ∨ ∃ i, ef = .defaults k i) →
            ∀ iq, ef ∉ (observation e q r iq).2.2 := by
          intro ef hef iq hmem
          have := observation_eff e q r iq ef hmem
          rcases hef with rfl | ⟨i, rfl⟩ <;> exact this trivial
        unfold finish respond at hk ⊢
        dsimp only at hk ⊢
        have hdrop : ∀ (ef : Eff) (l : List Eff), (ef = .changed k ∨ ∃ i, ef = .defaults k i) →
            ef ∈ (if z.1.success && q.method == .get && decide (code < c400)
              then observation e q r (ifaceQuery q.query) else (none, none, [])).2.2 ++ l → ef ∈ l := by
          intro ef l hef hmem
          rcases List.mem_append.1 hmem with h | h
          · exfalso
            by_cases hb : (z.1.success && q.method == .get && decide (code < c400)) = true
            · rw [if_pos hb] at h; exact hin ef hef _ h
            · rw [if_neg hb] at h; cases h
          · exact h
        have hk' := Or.imp (hdrop _ _ (Or.inl rfl))
          (Exists.imp fun i h => hdrop (.defaults k i) _ (Or.inr ⟨i, rfl⟩) h) hk
        clear hk
        generalize hsep : sepOf z.2 = sep at hk' ⊢
        cases sep with
        | true =>
          rw [if_pos rfl] at hk'
          rcases hk' with h | ⟨_, h⟩ <;> cases h
        | false =>
          simp only [Bool.false_eq_true, if_false] at hk' ⊢
          by_cases hmc : (q.mcast && decide (code ≥ c400)) = true
          · rw [if_pos hmc, if_pos rfl] at hk'
            rcases hk' with h | ⟨_, h⟩ <;> cases h
          · rw [if_neg hmc] at hk' ⊢
            by_cases hcl : code = clearTx
            · rw [if_pos hcl] at hk'
              rcases hk' with h | ⟨_, h⟩ <;> cases h
            · rw [if_neg hcl] at hk' ⊢
              by_cases hcond : (!r.coll && (q.method == .put || q.method == .post) && decide (code < c400)) = true
              · have hcond' := hcond
                simp only [Bool.and_eq_true, Bool.or_eq_true, Bool.not_eq_true', decide_eq_true_eq, beq_iff_eq] at hcond'
                obtain ⟨⟨c1, c2⟩, c3⟩ := hcond'
                rw [if_pos hcond] at hk'
                have hkid : k = r.id := by
                  by_cases h0 : code = 0
                  · rw [if_pos h0] at hk'
                    rcases hk' with h | ⟨_, h⟩ <;> revert h <;> dsimp only <;> split <;> intro h <;>
                      simp at h <;> first | exact h | exact h.1
                  · rw [if_neg h0] at hk'
                    rcases hk' with h | ⟨_, h⟩ <;> revert h <;> dsimp only <;> split <;> intro h <;>
                      simp at h <;> first | exact h | exact h.1
                refine ⟨hkid, c1, c2, ?_, ?_⟩
                · cases hz2 : z.2 with
                  | some a => rfl
                  | none =>
                    exfalso
                    have hs := hz c2 hz2
                    have hst := status_ge _ hs
                    have hzz : z.1.zero = false := by
                      cases hzz : z.1.zero with
                      | false => rfl
                      | true =>
                        exfalso
                        unfold Mask.zero at hzz
                        unfold Mask.success at hs
                        simp only [Bool.and_eq_true, Bool.not_eq_true'] at hzz
                        obtain ⟨⟨⟨⟨⟨⟨a1, a2⟩, a3⟩, a4⟩, a5⟩, a6⟩, a7⟩ := hzz
                        rw [a2, a3, a4, a5, a6, a7] at hs
                        cases hs
                    rw [codeOf_bad hzz] at hcode
                    omega
                · by_cases h0 : code = 0
                  · rw [if_pos h0]; exact Or.inl rfl
                  · rw [if_neg h0]
                    exact Or.inr ⟨_, _, _, _, _, rfl, c3⟩
              · rw [if_neg hcond] at hk'
                exfalso
                by_cases h0 : code = 0
                · rw [if_pos h0] at hk'
                  rcases hk' with h | ⟨_, h⟩ <;> cases h
                · rw [if_neg h0] at hk'
                  rcases hk' with h | ⟨_, h⟩ <;> cases h

example : (serve exEnv exReg (exReq .post (b "light") []) (.complete [1])).bind
    (fun x => .ok x.eff) = .ok [.changed 1] := by rfl

/-! ### The format of the answer -/

/-- FALSE: the payload of an answer is of the content format the answer names. The
Accept option application/link-format is let through, the answer of a handler is
labelled with it, and the payload is encoded with whatever encoder was used before. -/
theorem link_format_false : ¬ ∀ (old : Enc) (q : Req) (c size : Nat),
    (q.accept = undef ∨ acceptOk q.accept = true) →
    produces (encByAccept old q.accept) (sendResponse q (some c) size).cf := by
  intro h
  have := h .cbor { exReq .get (b "light") [] with accept := linkFormat } 69 8 (Or.inr rfl)
  revert this
  show ¬ (linkFormat = 60 ∨ linkFormat = 10000)
  decide

/-- For every other value of the Accept option, and without one, the payload is of
the content format the answer names, whatever encoder was used before, and that
is the one asked for (OCF CBOR if none was). -/
theorem format_partial (old : Enc) (q : Req) (c size : Nat)
    (h : q.accept = undef ∨ acceptOk q.accept = true) (hl : q.accept ≠ linkFormat) :
    produces (encByAccept old q.accept) (sendResponse q (some c) size).cf ∧
    (sendResponse q (some c) size).cf = if q.accept = undef then 10000 else q.accept := by
  unfold acceptOk at h
  simp only [Bool.or_eq_true, beq_iff_eq] at h
  unfold sendResponse
  dsimp only
  rcases h with h | ((((h | h) | h) | h) | h)
  · rw [h]; exact ⟨Or.inr rfl, rfl⟩
  · rw [h]; exact ⟨Or.inr rfl, rfl⟩
  · rw [h]; exact ⟨Or.inl rfl, rfl⟩
  · rw [h]; exact ⟨Or.inl rfl, rfl⟩
  · rw [h]; exact ⟨Or.inr rfl, rfl⟩
  · exact absurd h hl

example : (sendResponse { exReq .get (b "light") [] with accept := json } (some 69) 8).cf = 50 := rfl

end Verif.Ri
