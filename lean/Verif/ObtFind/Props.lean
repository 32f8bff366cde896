import Verif.ObtFind.Lemmas

/-!
C147: Finding devices with an onboarding tool.
-/

namespace Verif.ObtFind

open Verif.Rep (Bytes b Val Rep)
open Verif.Acl (Id)

/-! ### All histories -/

/-- Whatever answers come, the lists of the tool have each device once and never the
tool itself; each callback is of a discovery that was begun, names a device other than
the tool and has endpoints. -/
theorem lists (P : Reader) (me : Id) (owners : List Id) (ops : List Op) (s : St)
    (h : run P ops { me := me, owners := owners } = .ok s) :
    (s.cache.map (·.uuid)).Nodup ∧ (s.devs.map (·.uuid)).Nodup ∧ me ∉ s.cache.map (·.uuid) ∧ me ∉ s.devs.map (·.uuid) ∧
      ∀ t ∈ s.log, t.uuid ≠ me ∧ t.eps ≠ [] ∧ t.cb < s.made := by
  obtain ⟨hi, hm⟩ := inv_run P ops _ s (inv_init me owners) h
  have hm : s.me = me := hm
  rw [← hm]
  exact ⟨hi.cache, hi.devs, hi.me.1, hi.me.2, hi.log⟩

/-- A callback is made only for a discovery that has not ended, and at most one for an
answer. -/
theorem told_live (P : Reader) (s s' : St) (o : Op) (h : step P s o = .ok s') :
    s'.log = s.log ∨ ∃ t, s'.log = s.log ++ [t] ∧ t.cb ∈ s.cbs := by
  have key : ∀ c u eps (x : St), x.log = s.log → x.cbs = s.cbs →
      (tell c u eps x).log = s.log ∨ ∃ t, (tell c u eps x).log = s.log ++ [t] ∧ t.cb ∈ s.cbs := by
    intro c u eps x hx hc
    rcases tell_cases c u eps x with q | ⟨hm, _, q⟩
    · rw [q]; exact .inl hx
    · rw [q]
      exact .inr ⟨⟨c, u, eps⟩, by rw [← hx], hc ▸ hm⟩
  cases o with
  | discover ok =>
    simp only [step, discover] at h
    split at h <;> (cases h; exact .inl rfl)
  | expire c => cases h; exact .inl rfl
  | owners l => cases h; exact .inl rfl
  | doxm c code p src ok =>
    simp only [step, doxm] at h
    split at h
    · cases h; exact .inl rfl
    · cases hr : readDoxm p (none, none) with
      | ub => rw [hr] at h; cases h
      | ok x =>
        rw [hr] at h
        simp only [Out.bind] at h
        repeat' split at h
        all_goals (cases h; try exact .inl rfl)
  | answer u code p src =>
    simp only [step, answer] at h
    split at h
    · cases h; exact .inl rfl
    · split at h
      · cases h; exact .inl rfl
      · cases hr : readLink p with
        | ub => rw [hr] at h; cases h
        | ok x =>
          rw [hr] at h
          simp only [Out.bind] at h
          repeat' split at h
          all_goals (cases h; try first | exact .inl rfl | exact key _ _ _ _ rfl rfl)
  | multi c code p src =>
    simp only [step, multi] at h
    split at h
    · cases h; exact .inl rfl
    · cases hr : readLink p with
      | ub => rw [hr] at h; cases h
      | ok x =>
        rw [hr] at h
        simp only [Out.bind] at h
        repeat' split at h
        all_goals (cases h; try first | exact .inl rfl | exact key _ _ _ _ rfl rfl)

/-- A discovery that ended stays so. -/
theorem ended (P : Reader) (s s' : St) (c : Nat) (o : Op) (hc : c ∉ s.cbs) (hm : c < s.made) (h : step P s o = .ok s') :
    c ∉ s'.cbs ∧ c < s'.made := by
  have key : ∀ d u eps (x : St), x.cbs = s.cbs → x.made = s.made → c ∉ (tell d u eps x).cbs ∧ c < (tell d u eps x).made := by
    intro d u eps x h1 h2
    rcases tell_cases d u eps x with q | ⟨_, _, q⟩ <;> rw [q]
    · rw [h1, h2]; exact ⟨hc, hm⟩
    · dsimp only; rw [h1, h2]; exact ⟨hc, hm⟩
  cases o with
  | discover ok =>
    simp only [step, discover] at h
    split at h
    · cases h
      refine ⟨?_, Nat.lt_succ_of_lt hm⟩
      intro q
      rw [List.mem_append, List.mem_singleton] at q
      exact q.elim hc (Nat.ne_of_lt hm)
    · cases h; exact ⟨hc, hm⟩
  | expire d => cases h; exact ⟨fun q => hc (List.mem_filter.1 q).1, hm⟩
  | owners l => cases h; exact ⟨hc, hm⟩
  | doxm d code p src ok =>
    simp only [step, doxm] at h
    split at h
    · cases h; exact ⟨hc, hm⟩
    · cases hr : readDoxm p (none, none) with
      | ub => rw [hr] at h; cases h
      | ok x =>
        rw [hr] at h
        simp only [Out.bind] at h
        repeat' split at h
        all_goals (cases h; try exact ⟨hc, hm⟩)
  | answer u code p src =>
    simp only [step, answer] at h
    split at h
    · cases h; exact ⟨hc, hm⟩
    · split at h
      · cases h; exact ⟨hc, hm⟩
      · cases hr : readLink p with
        | ub => rw [hr] at h; cases h
        | ok x =>
          rw [hr] at h
          simp only [Out.bind] at h
          repeat' split at h
          all_goals (cases h; try first | exact ⟨hc, hm⟩ | exact key _ _ _ _ rfl rfl)
  | multi d code p src =>
    simp only [step, multi] at h
    split at h
    · cases h; exact ⟨hc, hm⟩
    · cases hr : readLink p with
      | ub => rw [hr] at h; cases h
      | ok x =>
        rw [hr] at h
        simp only [Out.bind] at h
        repeat' split at h
        all_goals (cases h; try first | exact ⟨hc, hm⟩ | exact key _ _ _ _ rfl rfl)

/-! ### What a device says is what the application is told -/

/-- The object of an endpoint in the answer of a device: its text and maybe its
latency (api/oc_discovery.c:138-155). -/
def epObj (x : Bytes × Option Int) : Rep := (b "ep", Val.str x.1) :: (x.2.toList.map fun n => (b "lat", Val.int n))

/-- Properties of a link that are no anchor and no array of objects. -/
def Plain (r : Rep) : Prop := ∀ p ∈ r, p.1 ≠ b "anchor" ∧ ∀ l, p.2 ≠ .objs l

/-- The link of the answer of a device (api/oc_discovery.c:216-262). -/
def linkOf (u : Id) (x y z : Rep) (eps : List (Bytes × Option Int)) : Rep :=
  x ++ (b "anchor", .str (b "ocf://" ++ Sec.uuidText u)) :: (y ++ (b "eps", .objs (eps.map epObj)) :: z)

/-- The endpoints of the texts that can be read and do not belong to the other family
than that of the answer, in order. -/
def usable (P : Reader) (src : Ep) (eps : List (Bytes × Option Int)) : List Ep :=
  eps.filterMap fun x => (P x.1).filter fun e => !((src.v4 && e.v6) || (src.v6 && e.v4))

theorem pick_obj (P : Reader) (src : Ep) (x : Bytes × Option Int) :
    pick P src (epObj x) = .ok ((P x.1).filter fun e => !((src.v4 && e.v6) || (src.v6 && e.v4))) := by
  obtain ⟨t, n⟩ := x
  have hl : b "lat" ≠ b "ep" := by decide
  cases hp : P t with
  | none => cases n <;> simp [epObj, pick, isStr, textOf, Out.bind, hp, hl]
  | some e =>
    simp only [epObj, pick, isStr, textOf, Out.bind, hp, otherFamily, Option.filter]
    by_cases h : ((src.v4 && e.v6) || (src.v6 && e.v4)) = true <;> simp [h]

theorem pickAll_objs (P : Reader) (src : Ep) (l : List (Bytes × Option Int)) : pickAll P src (l.map epObj) = .ok (usable P src l) := by
  induction l with
  | nil => rfl
  | cons x l ih =>
    rw [List.map_cons, pickAll, pick_obj, ih]
    simp only [Out.bind, usable, List.filterMap_cons]
    cases (P x.1).filter fun e => !((src.v4 && e.v6) || (src.v6 && e.v4)) <;> rfl

theorem gather_skip (P : Reader) (src : Ep) (p : Bytes × Val) (r : Rep) (h : ∀ l, p.2 ≠ .objs l) : gather P src (p :: r) = gather P src r := by
  obtain ⟨k, v⟩ := p
  cases v <;> first | rfl | exact absurd rfl (h _)

theorem gather_plain (P : Reader) (src : Ep) (x r : Rep) (h : Plain x) : gather P src (x ++ r) = gather P src r := by
  induction x with
  | nil => rfl
  | cons p x ih =>
    rw [List.cons_append, gather_skip P src p _ (h p (by simp)).2]
    exact ih fun q hq => h q (by simp [hq])

theorem anchor_plain (x r : Rep) (h : Plain x) : anchor (x ++ r) = anchor r := by
  induction x with
  | nil => rfl
  | cons p x ih =>
    have hp := (h p (by simp)).1
    have ih := ih fun q hq => h q (by simp [hq])
    obtain ⟨k, v⟩ := p
    cases v with
    | str s => rw [List.cons_append, anchor, if_neg hp]; exact ih
    | _ => exact ih

theorem link_read (P : Reader) (src : Ep) (n : Bytes) (u : Id) (hu : u.length = 16) (x y z rest : Rep) (hx : Plain x) (hy : Plain y)
    (hz : Plain z) (eps : List (Bytes × Option Int)) :
    readLink ((n, .obj (linkOf u x y z eps)) :: rest) = .ok (some (u, linkOf u x y z eps)) ∧
      gather P src (linkOf u x y z eps) = .ok (usable P src eps) := by
  have h6 : (b "ocf://").length = 6 := by decide
  constructor
  · rw [readLink, linkOf, anchor_plain x _ hx, anchor, if_pos rfl]
    dsimp only
    rw [if_neg (by rw [List.length_append, h6]; omega), List.drop_append_of_le_length (by rw [h6]; omega),
      List.drop_of_length_le (by rw [h6]; omega), List.nil_append, Sec.strToUuid_text _ u hu]
    rfl
  · rw [linkOf, gather_plain P src x _ hx, gather_skip P src _ _ (by intro l h; cases h), gather_plain P src y _ hy, gather,
      pickAll_objs]
    have hzz : gather P src z = .ok [] := by
      have := gather_plain P src z [] hz
      rw [List.append_nil] at this
      exact this
    simp only [Out.bind, hzz, List.append_nil]

/-- The answer of a device that the tool owns to a discovery is told with exactly the
endpoints of the device that can be used, and the device is in the list with them; the
answer of one that it does not own changes nothing. -/
theorem owned_found (P : Reader) (s : St) (c code : Nat) (src : Ep) (n : Bytes) (u : Id) (hu : u.length = 16) (hm : u ≠ s.me)
    (x y z rest : Rep) (hx : Plain x) (hy : Plain y) (hz : Plain z) (eps : List (Bytes × Option Int)) (hcode : code < 5) :
    (u ∈ s.owners → c ∈ s.cbs → usable P src eps ≠ [] →
      ∃ s', step P s (.multi c code ((n, .obj (linkOf u x y z eps)) :: rest) src) = .ok s' ∧
        s'.log = s.log ++ [⟨c, u, usable P src eps⟩] ∧ s'.cache = s.cache ∧
        ∃ d, s'.devs.find? (fun d => d.uuid == u) = some d ∧ d.eps = usable P src eps) ∧
    (u ∉ s.owners → step P s (.multi c code ((n, .obj (linkOf u x y z eps)) :: rest) src) = .ok s) := by
  obtain ⟨h1, h2⟩ := link_read P src n u hu x y z rest hx hy hz eps
  have hb : ¬code ≥ badRequest := by unfold badRequest; omega
  constructor
  · intro ho hc he
    refine ⟨_, by simp only [step, multi, if_neg hb, h1, Out.bind, if_neg hm, h2]; rw [if_neg (fun q => q ho)], ?_⟩
    have ht : tell c u (usable P src eps) { s with devs := upd u (fun d => { d with eps := usable P src eps }) (cacheNew u src s.devs) } =
        { s with
          devs := upd u (fun d => { d with eps := usable P src eps }) (cacheNew u src s.devs)
          log := s.log ++ [⟨c, u, usable P src eps⟩] } := by
      unfold tell
      rw [if_neg (fun q => q.elim (fun r => r hc) he)]
    rw [ht]
    refine ⟨rfl, rfl, ?_⟩
    obtain ⟨d, _, hd⟩ := find_upd u (fun d => { d with eps := usable P src eps }) (fun _ => rfl) _ (cacheNew_mem u src s.devs)
    exact ⟨_, hd, rfl⟩
  · intro ho
    simp only [step, multi, if_neg hb, h1, Out.bind, if_neg hm]
    rw [if_pos ho]

/-- Properties of a doxm other than the two that are read. -/
def Other (r : Rep) : Prop := ∀ p ∈ r, p.1 ≠ b "deviceuuid" ∧ p.1 ≠ b "owned"

theorem readDoxm_other (x r : Rep) (h : Other x) (a : Option Id × Option Bool) : readDoxm (x ++ r) a = readDoxm r a := by
  induction x with
  | nil => rfl
  | cons p x ih =>
    have hp := h p (by simp)
    have ih := ih fun q hq => h q (by simp [hq])
    obtain ⟨k, v⟩ := p
    cases v with
    | str s => rw [List.cons_append, readDoxm, if_neg hp.1]; exact ih
    | bool v => rw [List.cons_append, readDoxm, if_neg hp.2]; exact ih
    | _ => exact ih

theorem doxm_read (x y z : Rep) (hx : Other x) (hy : Other y) (hz : Other z) (u : Id) (hu : u.length = 16) (v : Bool) :
    readDoxm (x ++ (b "owned", .bool v) :: (y ++ (b "deviceuuid", .str (Sec.uuidText u)) :: z)) (none, none) =
      .ok (some u, some v) := by
  rw [readDoxm_other x _ hx, readDoxm, if_pos rfl, readDoxm_other y _ hy, readDoxm, if_pos rfl, readId_text _ u hu]
  simp only [Out.bind]
  have := readDoxm_other z [] hz (some u, some v)
  rw [List.append_nil] at this
  exact this

/-- A device that says that it is not owned is asked for its endpoints, and when it
answers the application is told exactly those that can be used; one that says that it
is owned changes nothing. -/
theorem unowned_found (P : Reader) (s : St) (c c1 c2 : Nat) (src src' : Ep) (n : Bytes) (u : Id) (hu : u.length = 16) (hm : u ≠ s.me)
    (dx dy dz : Rep) (hdx : Other dx) (hdy : Other dy) (hdz : Other dz) (v : Bool)
    (x y z rest : Rep) (hx : Plain x) (hy : Plain y) (hz : Plain z) (eps : List (Bytes × Option Int)) (h1 : c1 < 5) (h2 : c2 < 5)
    (hc : c ∈ s.cbs) (he : usable P src' eps ≠ []) :
    (v = false → ∃ s', run P [.doxm c c1 (dx ++ (b "owned", .bool v) :: (dy ++ (b "deviceuuid", .str (Sec.uuidText u)) :: dz)) src true,
        .answer u c2 ((n, .obj (linkOf u x y z eps)) :: rest) src'] s = .ok s' ∧
      s'.log = s.log ++ [⟨c, u, usable P src' eps⟩] ∧ s'.devs = s.devs ∧
      ∃ d, s'.cache.find? (fun d => d.uuid == u) = some d ∧ d.eps = usable P src' eps) ∧
    (v = true → step P s (.doxm c c1 (dx ++ (b "owned", .bool v) :: (dy ++ (b "deviceuuid", .str (Sec.uuidText u)) :: dz)) src true) = .ok s) := by
  have hb1 : ¬c1 ≥ badRequest := by unfold badRequest; omega
  have hb2 : ¬c2 ≥ badRequest := by unfold badRequest; omega
  have hd := doxm_read dx dy dz hdx hdy hdz u hu v
  constructor
  · rintro rfl
    obtain ⟨hl, hg⟩ := link_read P src' n u hu x y z rest hx hy hz eps
    obtain ⟨d0, hd0, hd1⟩ := find_upd u (fun d => { d with ctx := c }) (fun _ => rfl) _ (cacheNew_mem u src s.cache)
    have hmem : u ∈ (upd u (fun d => { d with ctx := c }) (cacheNew u src s.cache)).map (·.uuid) := by
      rw [upd_ids u (fun d => { d with ctx := c }) _ (fun _ => rfl)]
      exact cacheNew_mem u src s.cache
    obtain ⟨d2, hd2, hd3⟩ := find_upd u (fun d => { d with eps := usable P src' eps }) (fun _ => rfl) _ hmem
    have hs1 : step P s (.doxm c c1 (dx ++ (b "owned", .bool false) :: (dy ++ (b "deviceuuid", .str (Sec.uuidText u)) :: dz)) src true) =
        .ok { s with cache := upd u (fun d => { d with ctx := c }) (cacheNew u src s.cache), gets := s.gets ++ [u] } := by
      simp only [step, doxm, if_neg hb1, hd, Out.bind, if_neg hm, Bool.false_eq_true, if_false, if_true]
    rw [run, hs1]
    simp only [Out.bind, run]
    have hs2 : step P { s with cache := upd u (fun d => { d with ctx := c }) (cacheNew u src s.cache), gets := s.gets ++ [u] }
          (.answer u c2 ((n, .obj (linkOf u x y z eps)) :: rest) src') =
        .ok (tell c u (usable P src' eps) { s with
          cache := upd u (fun d => { d with eps := usable P src' eps }) (upd u (fun d => { d with ctx := c }) (cacheNew u src s.cache))
          gets := (s.gets ++ [u]).erase u }) := by
      simp only [step, answer]
      rw [if_neg (by simp)]
      simp only [if_neg hb2, hl, Out.bind, if_neg hm, hd1, hg]
    rw [hs2]
    refine ⟨_, rfl, ?_⟩
    unfold tell
    rw [if_neg (fun q => q.elim (fun r => r hc) he)]
    exact ⟨rfl, rfl, _, hd3, rfl⟩
  · rintro rfl
    simp only [step, doxm, if_neg hb1, hd, Out.bind, if_neg hm, if_true]

/-- A reader of texts: the endpoint of IPv6 with the text as its address, but for two. -/
def exP : Reader := fun s => if s = [] then none else if s = [4] then some ⟨true, false, s⟩ else some ⟨false, true, s⟩

/-- A UUID. -/
def exId (n : UInt8) : Id := List.replicate 16 n

/-- An answer over IPv6. -/
def exSrc : Ep := ⟨false, true, [0]⟩

example : usable exP exSrc [([6], none), ([4], some 3), ([], none), ([7], some 1)] = [⟨false, true, [6]⟩, ⟨false, true, [7]⟩] := by decide

example : Plain [(b "href", .str [1]), (b "rt", .strs [])] ∧ Other [(b "oxms", .ints [0]), (b "rowneruuid", .str [])] := by
  refine ⟨?_, ?_⟩
  · intro p hp
    simp only [List.mem_cons, List.not_mem_nil, or_false] at hp
    rcases hp with rfl | rfl <;> exact ⟨by decide, by intro l h; cases h⟩
  · intro p hp
    simp only [List.mem_cons, List.not_mem_nil, or_false] at hp
    rcases hp with rfl | rfl <;> exact ⟨by decide, by decide⟩

theorem anchor_mem : ∀ (l : Rep) (s : Bytes), anchor l = some s → (b "anchor", Val.str s) ∈ l
  | [], _, h => by cases h
  | (k, v) :: l, s, h => by
    by_cases hv : ∃ t, v = .str t
    · obtain ⟨t, rfl⟩ := hv
      rw [anchor] at h
      split at h
      · next hk => cases h; subst hk; simp
      · exact List.mem_cons_of_mem _ (anchor_mem l s h)
    · have : anchor ((k, v) :: l) = anchor l := by
        cases v <;> first | rfl | exact absurd ⟨_, rfl⟩ hv
      rw [this] at h
      exact List.mem_cons_of_mem _ (anchor_mem l s h)

/-- An answer that is an error changes nothing but that the request is answered. -/
theorem ignored (P : Reader) (s : St) (c code : Nat) (u : Id) (p : Rep) (src : Ep) (ok : Bool) (h : 5 ≤ code) :
    step P s (.doxm c code p src ok) = .ok s ∧ step P s (.multi c code p src) = .ok s ∧
      step P s (.answer u code p src) = .ok (if u ∈ s.gets then { s with gets := s.gets.erase u } else s) := by
  have hb : code ≥ badRequest := h
  refine ⟨by simp only [step, doxm, if_pos hb], by simp only [step, multi, if_pos hb], ?_⟩
  simp only [step, answer]
  by_cases hu : u ∈ s.gets
  · rw [if_neg (fun q => q hu), if_pos hb, if_pos hu]
  · rw [if_pos hu, if_neg hu]

/-- What the tool says about itself changes nothing but that a request is answered. -/
theorem self_ignored (P : Reader) (s : St) (u : Id) (c code : Nat) (src : Ep) (ok : Bool) (n : Bytes) (hu : s.me.length = 16)
    (dx dy dz : Rep) (hdx : Other dx) (hdy : Other dy) (hdz : Other dz) (v : Bool)
    (x y z rest : Rep) (hx : Plain x) (hy : Plain y) (hz : Plain z) (eps : List (Bytes × Option Int)) :
    step P s (.doxm c code (dx ++ (b "owned", .bool v) :: (dy ++ (b "deviceuuid", .str (Sec.uuidText s.me)) :: dz)) src ok) = .ok s ∧
      step P s (.multi c code ((n, .obj (linkOf s.me x y z eps)) :: rest) src) = .ok s ∧
      step P s (.answer u code ((n, .obj (linkOf s.me x y z eps)) :: rest) src) =
        .ok (if u ∈ s.gets then { s with gets := s.gets.erase u } else s) := by
  have hd := doxm_read dx dy dz hdx hdy hdz s.me hu v
  have hl := (link_read P src n s.me hu x y z rest hx hy hz eps).1
  refine ⟨?_, ?_, ?_⟩
  · simp only [step, doxm, hd, Out.bind, if_true]
    split <;> rfl
  · simp only [step, multi, hl, Out.bind, if_true]
    split <;> rfl
  · simp only [step, answer, hl, Out.bind, if_true]
    by_cases hg : u ∈ s.gets
    · rw [if_neg (fun q => q hg), if_pos hg]
      split <;> rfl
    · rw [if_pos hg, if_neg hg]

/-- An answer without links, or whose first link has no anchor, changes nothing but
that the request is answered. -/
theorem nothing (P : Reader) (s : St) (c code : Nat) (u : Id) (src : Ep) (p : Rep)
    (h : p = [] ∨ ∃ n l r, p = (n, .obj l) :: r ∧ ∀ q ∈ l, q.1 ≠ b "anchor") :
    step P s (.multi c code p src) = .ok s ∧
      step P s (.answer u code p src) = .ok (if u ∈ s.gets then { s with gets := s.gets.erase u } else s) := by
  have hr : readLink p = .ok none := by
    rcases h with rfl | ⟨n, l, r, rfl, ha⟩
    · rfl
    · have : anchor l = none := by
        cases q : anchor l with
        | none => rfl
        | some t => exact absurd rfl (ha _ (anchor_mem l t q))
      rw [readLink, this]
  constructor
  · simp only [step, multi, hr, Out.bind]
    split <;> rfl
  · simp only [step, answer, hr, Out.bind]
    by_cases hu : u ∈ s.gets
    · rw [if_neg (fun q => q hu), if_pos hu]
      split <;> rfl
    · rw [if_pos hu, if_neg hu]

/-- When the time of a discovery is over it ends, and nothing else changes. -/
theorem expired (P : Reader) (s : St) (c : Nat) : ∃ s', step P s (.expire c) = .ok s' ∧ c ∉ s'.cbs ∧
    (∀ d, d ≠ c → (d ∈ s'.cbs ↔ d ∈ s.cbs)) ∧ s'.cache = s.cache ∧ s'.devs = s.devs ∧ s'.log = s.log ∧ s'.gets = s.gets := by
  refine ⟨_, rfl, ?_, ?_, rfl, rfl, rfl, rfl⟩
  · simp
  · intro d hd
    simp [hd]

/-- No answer removes a device from the lists of the tool. -/
theorem devices_stay (P : Reader) (s s' : St) (o : Op) (h : step P s o = .ok s') :
    (∀ u ∈ s.cache.map (·.uuid), u ∈ s'.cache.map (·.uuid)) ∧ ∀ u ∈ s.devs.map (·.uuid), u ∈ s'.devs.map (·.uuid) := by
  have keep : ∀ u src (l : List Dev) v, v ∈ l.map (·.uuid) → v ∈ (cacheNew u src l).map (·.uuid) := by
    intro u src l v hv
    unfold cacheNew
    split
    · have := upd_ids u (fun d => { d with eps := [src] }) l (fun _ => rfl)
      unfold upd at this
      rw [this]
      exact hv
    · rw [List.map_append, List.mem_append]; exact .inl hv
  have ku : ∀ u (eps : List Ep) (l : List Dev) v, v ∈ l.map (·.uuid) → v ∈ (upd u (fun d => { d with eps := eps }) l).map (·.uuid) := by
    intro u eps l v hv
    rw [upd_ids u (fun d => { d with eps := eps }) l (fun _ => rfl)]
    exact hv
  have kt : ∀ c u eps (x : St), (tell c u eps x).cache = x.cache ∧ (tell c u eps x).devs = x.devs := by
    intro c u eps x
    unfold tell
    split <;> exact ⟨rfl, rfl⟩
  cases o with
  | discover ok =>
    simp only [step, discover] at h
    split at h <;> (cases h; exact ⟨fun _ => id, fun _ => id⟩)
  | expire c => cases h; exact ⟨fun _ => id, fun _ => id⟩
  | owners l => cases h; exact ⟨fun _ => id, fun _ => id⟩
  | doxm c code p src ok =>
    simp only [step, doxm] at h
    split at h
    · cases h; exact ⟨fun _ => id, fun _ => id⟩
    · cases hr : readDoxm p (none, none) with
      | ub => rw [hr] at h; cases h
      | ok x =>
        rw [hr] at h
        simp only [Out.bind] at h
        split at h
        · cases h; exact ⟨fun _ => id, fun _ => id⟩
        · split at h
          · cases h
          · next u _ =>
            split at h
            · cases h; exact ⟨fun _ => id, fun _ => id⟩
            · split at h
              · cases h; exact ⟨fun _ => id, fun _ => id⟩
              · split at h <;>
                · cases h
                  refine ⟨fun v hv => ?_, fun _ => id⟩
                  dsimp only
                  rw [upd_ids u (fun d => { d with ctx := c }) _ (fun _ => rfl)]
                  exact keep _ _ _ _ hv
  | answer u code p src =>
    simp only [step, answer] at h
    split at h
    · cases h; exact ⟨fun _ => id, fun _ => id⟩
    · split at h
      · cases h; exact ⟨fun _ => id, fun _ => id⟩
      · cases hr : readLink p with
        | ub => rw [hr] at h; cases h
        | ok x =>
          rw [hr] at h
          simp only [Out.bind] at h
          repeat' split at h
          all_goals (cases h; try first
            | exact ⟨fun _ => id, fun _ => id⟩
            | (refine ⟨fun v hv => ?_, fun v hv => ?_⟩
               · rw [(kt _ _ _ _).1]
                 exact ku _ _ _ _ hv
               · rw [(kt _ _ _ _).2]
                 exact hv))
  | multi c code p src =>
    simp only [step, multi] at h
    split at h
    · cases h; exact ⟨fun _ => id, fun _ => id⟩
    · cases hr : readLink p with
      | ub => rw [hr] at h; cases h
      | ok x =>
        rw [hr] at h
        simp only [Out.bind] at h
        repeat' split at h
        all_goals (cases h; try first
          | exact ⟨fun _ => id, fun _ => id⟩
          | (refine ⟨fun v hv => ?_, fun v hv => ?_⟩
             · rw [(kt _ _ _ _).1]
               exact hv
             · rw [(kt _ _ _ _).2]
               exact ku _ _ _ _ (keep _ _ _ _ hv)))

/-- A discovery that could not be sent is not begun; another one has a number that is
new. -/
theorem begun (P : Reader) (me : Id) (owners : List Id) (ops : List Op) (s : St)
    (h : run P ops { me := me, owners := owners } = .ok s) :
    discover false s = (false, s) ∧ s.made ∉ s.cbs ∧ s.made ∈ (discover true s).2.cbs ∧
      ∀ c ∈ s.cbs, c ∈ (discover true s).2.cbs := by
  have hi := (inv_run P ops _ s (inv_init me owners) h).1
  refine ⟨rfl, fun q => Nat.lt_irrefl _ (hi.cbs _ q), ?_, ?_⟩
  · simp [discover]
  · intro c hc
    simp [discover, hc]

/-- A change of one device leaves the others. -/
theorem upd_others (u : Id) (f : Dev → Dev) (hf : ∀ d, (f d).uuid = d.uuid) (l : List Dev) (d : Dev) (hd : d.uuid ≠ u) :
    d ∈ upd u f l ↔ d ∈ l := by
  unfold upd
  rw [List.mem_map]
  constructor
  · rintro ⟨a, ha, rfl⟩
    by_cases h : a.uuid = u
    · rw [if_pos h, hf] at hd
      exact absurd h hd
    · rw [if_neg h]; exact ha
  · intro h
    exact ⟨d, h, by rw [if_neg hd]⟩

theorem cacheNew_others (u : Id) (src : Ep) (l : List Dev) (d : Dev) (hd : d.uuid ≠ u) : d ∈ cacheNew u src l ↔ d ∈ l := by
  unfold cacheNew
  split
  · exact upd_others u (fun d => { d with eps := [src] }) (fun _ => rfl) l d hd
  · rw [List.mem_append, List.mem_singleton]
    constructor
    · rintro (h | rfl)
      · exact h
      · exact absurd rfl hd
    · exact .inl

/-- An answer changes what the tool knows of one device at most: the one that was
asked, or the one that the answer names. -/
theorem others_kept (P : Reader) (s s' : St) (o : Op) (h : step P s o = .ok s') :
    ∃ u, (∀ v code p src, o = .answer v code p src → u = v) ∧
      ∀ d, d.uuid ≠ u → (d ∈ s'.cache ↔ d ∈ s.cache) ∧ (d ∈ s'.devs ↔ d ∈ s.devs) := by
  have kt : ∀ c u eps (x : St), (tell c u eps x).cache = x.cache ∧ (tell c u eps x).devs = x.devs := by
    intro c u eps x
    unfold tell
    split <;> exact ⟨rfl, rfl⟩
  have ku : ∀ u (eps : List Ep) (l : List Dev) (d : Dev), d.uuid ≠ u → (d ∈ upd u (fun d => { d with eps := eps }) l ↔ d ∈ l) :=
    fun u eps l d hd => upd_others u (fun d => { d with eps := eps }) (fun _ => rfl) l d hd
  cases o with
  | discover ok =>
    refine ⟨[], (by intro v c p r q; cases q), ?_⟩
    simp only [step, discover] at h
    split at h <;> (cases h; exact fun _ _ => ⟨Iff.rfl, Iff.rfl⟩)
  | expire c => cases h; exact ⟨[], (by intro v c p r q; cases q), fun _ _ => ⟨Iff.rfl, Iff.rfl⟩⟩
  | owners l => cases h; exact ⟨[], (by intro v c p r q; cases q), fun _ _ => ⟨Iff.rfl, Iff.rfl⟩⟩
  | doxm c code p src ok =>
    simp only [step, doxm] at h
    split at h
    · cases h; exact ⟨[], (by intro v c p r q; cases q), fun _ _ => ⟨Iff.rfl, Iff.rfl⟩⟩
    · cases hr : readDoxm p (none, none) with
      | ub => rw [hr] at h; cases h
      | ok x =>
        rw [hr] at h
        simp only [Out.bind] at h
        split at h
        · cases h; exact ⟨[], (by intro v c p r q; cases q), fun _ _ => ⟨Iff.rfl, Iff.rfl⟩⟩
        · split at h
          · cases h
          · next u _ =>
            refine ⟨u, (by intro v c p r q; cases q), ?_⟩
            split at h
            · cases h; exact fun _ _ => ⟨Iff.rfl, Iff.rfl⟩
            · split at h
              · cases h; exact fun _ _ => ⟨Iff.rfl, Iff.rfl⟩
              · split at h <;>
                · cases h
                  refine fun d hd => ⟨?_, Iff.rfl⟩
                  exact (upd_others u (fun d => { d with ctx := c }) (fun _ => rfl) _ d hd).trans (cacheNew_others u src _ d hd)
  | answer u code p src =>
    refine ⟨u, (by intro v c p r q; cases q; rfl), ?_⟩
    simp only [step, answer] at h
    split at h
    · cases h; exact fun _ _ => ⟨Iff.rfl, Iff.rfl⟩
    · split at h
      · cases h; exact fun _ _ => ⟨Iff.rfl, Iff.rfl⟩
      · cases hr : readLink p with
        | ub => rw [hr] at h; cases h
        | ok x =>
          rw [hr] at h
          simp only [Out.bind] at h
          repeat' split at h
          all_goals (cases h; try first
            | exact fun _ _ => ⟨Iff.rfl, Iff.rfl⟩
            | (intro d hd
               rw [(kt _ _ _ _).1, (kt _ _ _ _).2]
               exact ⟨ku _ _ _ d hd, Iff.rfl⟩))
  | multi c code p src =>
    simp only [step, multi] at h
    split at h
    · cases h; exact ⟨[], (by intro v c p r q; cases q), fun _ _ => ⟨Iff.rfl, Iff.rfl⟩⟩
    · cases hr : readLink p with
      | ub => rw [hr] at h; cases h
      | ok x =>
        rw [hr] at h
        simp only [Out.bind] at h
        cases x with
        | none => cases h; exact ⟨[], (by intro v c p r q; cases q), fun _ _ => ⟨Iff.rfl, Iff.rfl⟩⟩
        | some q =>
          obtain ⟨u, l⟩ := q
          refine ⟨u, (by intro v c p r q; cases q), ?_⟩
          dsimp only at h
          repeat' split at h
          all_goals (cases h; try first
            | exact fun _ _ => ⟨Iff.rfl, Iff.rfl⟩
            | (intro d hd
               rw [(kt _ _ _ _).1, (kt _ _ _ _).2]
               exact ⟨Iff.rfl, (ku _ _ _ d hd).trans (cacheNew_others u src _ d hd)⟩))

/-- What is told comes from an answer: to a discovery of owned devices, of a device that
the tool owns, for that discovery; or of a device that was asked because it said that
it was not owned, for the discovery kept with the device. -/
theorem told_what (P : Reader) (s s' : St) (o : Op) (t : Told) (h : step P s o = .ok s') (ht : s'.log = s.log ++ [t]) :
    (∃ code p src, o = .multi t.cb code p src ∧ code < 5 ∧ t.uuid ∈ s.owners) ∨
      ∃ code p src d, o = .answer t.uuid code p src ∧ code < 5 ∧ t.uuid ∈ s.gets ∧ d ∈ s.cache ∧ d.uuid = t.uuid ∧ d.ctx = t.cb := by
  have no : ∀ {x : List Told}, x = x ++ [t] → False := by
    intro x hx
    have := congrArg List.length hx
    simp at this
  have key : ∀ c u eps (x : St), (tell c u eps x).log = s.log ++ [t] → x.log = s.log → t = ⟨c, u, eps⟩ := by
    intro c u eps x q hx
    rcases tell_cases c u eps x with r | ⟨_, _, r⟩
    · rw [r, hx] at q; exact (no q).elim
    · rw [r] at q
      dsimp only at q
      rw [hx] at q
      have := List.append_cancel_left q
      simp only [List.cons.injEq, and_true] at this
      exact this.symm
  cases o with
  | discover ok =>
    simp only [step, discover] at h
    split at h <;> (cases h; exact (no ht).elim)
  | expire c => cases h; exact (no ht).elim
  | owners l => cases h; exact (no ht).elim
  | doxm c code p src ok =>
    simp only [step, doxm] at h
    split at h
    · cases h; exact (no ht).elim
    · cases hr : readDoxm p (none, none) with
      | ub => rw [hr] at h; cases h
      | ok x =>
        rw [hr] at h
        simp only [Out.bind] at h
        repeat' split at h
        all_goals (cases h; try exact (no ht).elim)
  | answer u code p src =>
    simp only [step, answer] at h
    split at h
    · cases h; exact (no ht).elim
    · next hu =>
      have hu := Classical.not_not.1 hu
      split at h
      · cases h; exact (no ht).elim
      · next hb =>
        have hb : code < 5 := Nat.lt_of_not_le hb
        cases hr : readLink p with
        | ub => rw [hr] at h; cases h
        | ok x =>
          rw [hr] at h
          simp only [Out.bind] at h
          cases x with
          | none => cases h; exact (no ht).elim
          | some q =>
            dsimp only at h
            split at h
            · cases h; exact (no ht).elim
            · split at h
              · cases h
              · next d hd =>
                split at h
                · cases h
                  have := key _ _ _ _ ht rfl
                  subst this
                  refine .inr ⟨code, p, src, d, rfl, hb, hu, List.mem_of_find?_eq_some hd, ?_, rfl⟩
                  simpa using List.find?_some hd
                · cases h
  | multi c code p src =>
    simp only [step, multi] at h
    split at h
    · cases h; exact (no ht).elim
    · next hb =>
      have hb : code < 5 := Nat.lt_of_not_le hb
      cases hr : readLink p with
      | ub => rw [hr] at h; cases h
      | ok x =>
        rw [hr] at h
        simp only [Out.bind] at h
        cases x with
        | none => cases h; exact (no ht).elim
        | some q =>
          dsimp only at h
          split at h
          · cases h; exact (no ht).elim
          · split at h
            · cases h; exact (no ht).elim
            · next ho =>
              split at h
              · cases h
                have := key _ _ _ _ ht rfl
                subst this
                exact .inl ⟨code, p, src, rfl, hb, Classical.not_not.1 ho⟩
              · cases h

/-- A device is asked for its endpoints only after it answered to a discovery, not as an
error, with `owned` false, and the request could be sent. -/
theorem asked_why (P : Reader) (s s' : St) (o : Op) (u : Id) (h : step P s o = .ok s') (hu : u ∈ s'.gets) (hn : u ∉ s.gets) :
    ∃ c code p src, o = .doxm c code p src true ∧ code < 5 ∧ (b "owned", Val.bool false) ∈ p := by
  have kt : ∀ c u eps (x : St), (tell c u eps x).gets = x.gets := by
    intro c u eps x
    unfold tell
    split <;> rfl
  have last : ∀ (p : Rep) (a x : Option Id × Option Bool), readDoxm p a = .ok x → x.2 = some false →
      a.2 = some false ∨ (b "owned", Val.bool false) ∈ p := by
    intro p
    induction p with
    | nil => intro a x hx h2; cases hx; exact .inl h2
    | cons q p ih =>
      intro a x hx h2
      obtain ⟨k, v⟩ := q
      cases v with
      | str t =>
        rw [readDoxm] at hx
        split at hx
        · cases hr : readId a.1 t with
          | ub => rw [hr] at hx; cases hx
          | ok y =>
            rw [hr] at hx
            exact (ih _ _ hx h2).imp id (List.mem_cons_of_mem _)
        · exact (ih _ _ hx h2).imp id (List.mem_cons_of_mem _)
      | bool w =>
        rw [readDoxm] at hx
        split at hx
        · next hk =>
          rcases ih _ _ hx h2 with q | q
          · simp only [Option.some.injEq] at q
            subst q hk
            exact .inr (by simp)
          · exact .inr (List.mem_cons_of_mem _ q)
        · exact (ih _ _ hx h2).imp id (List.mem_cons_of_mem _)
      | _ => exact (ih _ _ hx h2).imp id (List.mem_cons_of_mem _)
  cases o with
  | discover ok =>
    simp only [step, discover] at h
    split at h <;> (cases h; exact absurd hu hn)
  | expire c => cases h; exact absurd hu hn
  | owners l => cases h; exact absurd hu hn
  | doxm c code p src ok =>
    simp only [step, doxm] at h
    split at h
    · cases h; exact absurd hu hn
    · next hb =>
      have hb : code < 5 := Nat.lt_of_not_le hb
      cases hr : readDoxm p (none, none) with
      | ub => rw [hr] at h; cases h
      | ok x =>
        rw [hr] at h
        simp only [Out.bind] at h
        split at h
        · cases h; exact absurd hu hn
        · next owned h2 =>
          split at h
          · cases h
          · split at h
            · cases h; exact absurd hu hn
            · split at h
              · cases h; exact absurd hu hn
              · next hw =>
                have hw : owned = false := by simpa using hw
                subst hw
                rcases last p _ x hr h2 with q | q
                · cases q
                · split at h
                  · next hk => subst hk; exact ⟨c, code, p, src, rfl, hb, q⟩
                  · cases h; exact absurd hu hn
  | answer v code p src =>
    simp only [step, answer] at h
    split at h
    · cases h; exact absurd hu hn
    · split at h
      · cases h; exact absurd (List.mem_of_mem_erase hu) hn
      · cases hr : readLink p with
        | ub => rw [hr] at h; cases h
        | ok x =>
          rw [hr] at h
          simp only [Out.bind] at h
          repeat' split at h
          all_goals (cases h; try first
            | exact absurd (List.mem_of_mem_erase hu) hn
            | (rw [kt] at hu; exact absurd (List.mem_of_mem_erase hu) hn))
  | multi c code p src =>
    simp only [step, multi] at h
    split at h
    · cases h; exact absurd hu hn
    · cases hr : readLink p with
      | ub => rw [hr] at h; cases h
      | ok x =>
        rw [hr] at h
        simp only [Out.bind] at h
        repeat' split at h
        all_goals (cases h; try first
          | exact absurd hu hn
          | (rw [kt] at hu; exact absurd hu hn))

/-! ### Undefined behaviour -/

/-- Answers that the tool can read without leaving its memory. -/
def GoodLink (p : Rep) : Prop := ∀ q r, p = q :: r → ∃ l, q.2 = .obj l ∧
  (∀ s, (b "anchor", Val.str s) ∈ l → 6 ≤ s.length ∧ ∀ x ∈ s, x < 128) ∧
  ∀ k a, (k, Val.objs a) ∈ l → ∀ e ∈ a, ∀ v, (b "ep", v) ∈ e → ∃ t, v = .str t

/-- So for doxm: the UUID is there and of 32 digits at most if `owned` is. -/
def GoodDoxm (p : Rep) : Prop := (∀ s, (b "deviceuuid", Val.str s) ∈ p → ∀ x ∈ s, x < 128) ∧
  ((∃ v, (b "owned", Val.bool v) ∈ p) → ∃ x z s u, p = x ++ (b "deviceuuid", .str s) :: z ∧
    ∀ old, readId old s = .ok (some u))

/-- A good event. -/
def Op.Good : Op → Prop
  | .doxm _ _ p _ _ => GoodDoxm p
  | .answer _ _ p _ => GoodLink p
  | .multi _ _ p _ => GoodLink p
  | _ => True

theorem pick_ok (P : Reader) (src : Ep) : ∀ (e : Rep), (∀ v, (b "ep", v) ∈ e → ∃ t, v = .str t) → ∃ r, pick P src e = .ok r
  | [], _ => ⟨_, rfl⟩
  | (k, v) :: r, h => by
    have ih := pick_ok P src r fun v hv => h v (by simp [hv])
    rw [pick]
    split
    · exact ih
    · next hc =>
      have : ∃ t, v = .str t := by
        by_cases hk : k = b "ep"
        · exact h v (by simp [hk])
        · cases v with
          | str t => exact ⟨t, rfl⟩
          | _ => exact absurd ⟨rfl, hk⟩ hc
      obtain ⟨t, rfl⟩ := this
      simp only [textOf, Out.bind]
      split
      · exact ih
      · split <;> exact ⟨_, rfl⟩

theorem pickAll_ok (P : Reader) (src : Ep) : ∀ (a : List Rep), (∀ e ∈ a, ∀ v, (b "ep", v) ∈ e → ∃ t, v = .str t) →
    ∃ r, pickAll P src a = .ok r
  | [], _ => ⟨_, rfl⟩
  | e :: a, h => by
    obtain ⟨r, hr⟩ := pick_ok P src e (h e (by simp))
    obtain ⟨r', hr'⟩ := pickAll_ok P src a fun e he => h e (by simp [he])
    rw [pickAll, hr]
    simp only [Out.bind, hr']
    exact ⟨_, rfl⟩

theorem gather_ok (P : Reader) (src : Ep) : ∀ (l : Rep), (∀ k a, (k, Val.objs a) ∈ l → ∀ e ∈ a, ∀ v, (b "ep", v) ∈ e → ∃ t, v = .str t) →
    ∃ r, gather P src l = .ok r
  | [], _ => ⟨_, rfl⟩
  | (k, v) :: l, h => by
    obtain ⟨r, hr⟩ := gather_ok P src l fun k a ha => h k a (by simp [ha])
    by_cases hv : ∃ a, v = .objs a
    · obtain ⟨a, rfl⟩ := hv
      obtain ⟨r', hr'⟩ := pickAll_ok P src a (h k a (by simp))
      rw [gather, hr']
      simp only [Out.bind, hr]
      exact ⟨_, rfl⟩
    · rw [gather_skip P src _ _ (fun a q => hv ⟨a, q⟩)]
      exact ⟨r, hr⟩

theorem readLink_ok (P : Reader) (src : Ep) (p : Rep) (h : GoodLink p) :
    ∃ x, readLink p = .ok x ∧ ∀ u l, x = some (u, l) → ∃ r, gather P src l = .ok r := by
  cases p with
  | nil => exact ⟨_, rfl, by intro u l q; cases q⟩
  | cons q r =>
    obtain ⟨l, hl, ha, he⟩ := h q r rfl
    obtain ⟨n, v⟩ := q
    have hl : v = .obj l := hl
    subst hl
    rw [readLink]
    cases hq : anchor l with
    | none => exact ⟨_, rfl, by intro u l q; cases q⟩
    | some s =>
      obtain ⟨h6, h128⟩ := ha s (anchor_mem l s hq)
      dsimp only
      rw [if_neg (by omega)]
      obtain ⟨u, hu⟩ := strToUuid_ascii nilId (s.drop 6) fun x hx => h128 x (List.mem_of_mem_drop hx)
      rw [hu]
      refine ⟨_, rfl, ?_⟩
      intro u' l' q
      cases q
      exact gather_ok P src l he

theorem readDoxm_ok : ∀ (p : Rep) (a : Option Id × Option Bool), (∀ s, (b "deviceuuid", Val.str s) ∈ p → ∀ x ∈ s, x < 128) →
    ∃ y, readDoxm p a = .ok y ∧ (a.1.isSome → y.1.isSome) ∧ (y.2.isSome → a.2.isSome ∨ ∃ v, (b "owned", Val.bool v) ∈ p) := by
  intro p
  induction p with
  | nil => intro a _; exact ⟨a, rfl, id, .inl⟩
  | cons q p ih =>
    intro a h
    have ih := fun a => ih a fun s hs => h s (by simp [hs])
    have lift : ∀ y : Option Id × Option Bool, (y.2.isSome → a.2.isSome ∨ ∃ v, (b "owned", Val.bool v) ∈ p) →
        (y.2.isSome → a.2.isSome ∨ ∃ v, (b "owned", Val.bool v) ∈ q :: p) :=
      fun y hy hs => (hy hs).imp id fun ⟨v, hv⟩ => ⟨v, List.mem_cons_of_mem _ hv⟩
    obtain ⟨k, v⟩ := q
    cases v with
    | str s =>
      rw [readDoxm]
      split
      · next hk =>
        subst hk
        have hs := h s (by simp)
        obtain ⟨x, hx⟩ := ofStr_ascii _ (shown_ascii hs)
        rw [readId, hx]
        simp only [Out.bind]
        obtain ⟨y, h1, h2, h3⟩ := ih ((match x.2 with | some u => some u | none => a.1), a.2)
        refine ⟨y, h1, fun q => h2 ?_, lift y h3⟩
        cases hx2 : x.2 with
        | none => dsimp only; exact q
        | some u => rfl
      · obtain ⟨y, h1, h2, h3⟩ := ih a
        exact ⟨y, h1, h2, lift y h3⟩
    | bool w =>
      rw [readDoxm]
      split
      · next hk =>
        subst hk
        obtain ⟨y, h1, h2, h3⟩ := ih (a.1, some w)
        exact ⟨y, h1, h2, fun _ => .inr ⟨w, by simp⟩⟩
      · obtain ⟨y, h1, h2, h3⟩ := ih a
        exact ⟨y, h1, h2, lift y h3⟩
    | _ =>
      obtain ⟨y, h1, h2, h3⟩ := ih a
      exact ⟨y, h1, h2, lift y h3⟩

theorem readDoxm_append (x z : Rep) (a : Option Id × Option Bool) : readDoxm (x ++ z) a = (readDoxm x a).bind (readDoxm z) := by
  induction x generalizing a with
  | nil => rfl
  | cons q x ih =>
    obtain ⟨k, v⟩ := q
    cases v with
    | str s =>
      rw [List.cons_append, readDoxm, readDoxm]
      split
      · cases readId a.1 s with
        | ub => rfl
        | ok u => exact ih _
      · exact ih _
    | bool w =>
      rw [List.cons_append, readDoxm, readDoxm]
      split <;> exact ih _
    | _ => exact ih a

/-- No history of good answers has undefined behaviour. -/
theorem safe (P : Reader) (ops : List Op) (s : St) (hi : Inv s) (hg : ∀ o ∈ ops, o.Good) : ∃ s', run P ops s = .ok s' := by
  induction ops generalizing s with
  | nil => exact ⟨s, rfl⟩
  | cons o l ih =>
    have key : ∃ x, step P s o = .ok x := by
      have ho := hg o (by simp)
      cases o with
      | discover ok => exact ⟨_, rfl⟩
      | expire c => exact ⟨_, rfl⟩
      | owners l => exact ⟨_, rfl⟩
      | doxm c code p src ok =>
        simp only [step, doxm]
        split
        · exact ⟨_, rfl⟩
        · obtain ⟨ha, hb⟩ := (show GoodDoxm p from ho)
          obtain ⟨y, hy, _, hy3⟩ := readDoxm_ok p (none, none) ha
          rw [hy]
          simp only [Out.bind]
          split
          · exact ⟨_, rfl⟩
          · next v hv =>
            have : ∃ v, (b "owned", Val.bool v) ∈ p := (hy3 (by rw [hv]; rfl)).resolve_left (by intro q; cases q)
            obtain ⟨x, z, t, u, hp, hu⟩ := hb this
            have hsome : y.1.isSome := by
              rw [hp, readDoxm_append] at hy
              obtain ⟨w, hw, _, _⟩ := readDoxm_ok x (none, none) fun s hs => ha s (by rw [hp]; simp [hs])
              rw [hw] at hy
              simp only [Out.bind, readDoxm, if_true, hu] at hy
              obtain ⟨y', hy', h2, _⟩ := readDoxm_ok z (some u, w.2) fun s hs => ha s (by rw [hp]; simp [hs])
              rw [hy'] at hy
              cases hy
              exact h2 rfl
            cases hy1 : y.1 with
            | none => rw [hy1] at hsome; cases hsome
            | some u =>
              dsimp only
              split
              · exact ⟨_, rfl⟩
              · split <;> exact ⟨_, rfl⟩
      | answer u code p src =>
        simp only [step, answer]
        split
        · exact ⟨_, rfl⟩
        · next hu =>
          have hu : u ∈ s.gets := Classical.byContradiction hu
          split
          · exact ⟨_, rfl⟩
          · obtain ⟨x, hx, hgx⟩ := readLink_ok P src p ho
            rw [hx]
            simp only [Out.bind]
            split
            · exact ⟨_, rfl⟩
            · next v l' =>
              obtain ⟨r, hr⟩ := hgx v l' rfl
              split
              · exact ⟨_, rfl⟩
              · obtain ⟨d, hd, _⟩ := find_upd u id (fun _ => rfl) s.cache (hi.gets u hu)
                rw [hd]
                dsimp only
                rw [hr]
                exact ⟨_, rfl⟩
      | multi c code p src =>
        simp only [step, multi]
        split
        · exact ⟨_, rfl⟩
        · obtain ⟨x, hx, hgx⟩ := readLink_ok P src p ho
          rw [hx]
          simp only [Out.bind]
          split
          · exact ⟨_, rfl⟩
          · next v l' =>
            obtain ⟨r, hr⟩ := hgx v l' rfl
            split
            · exact ⟨_, rfl⟩
            · split
              · exact ⟨_, rfl⟩
              · rw [hr]
                exact ⟨_, rfl⟩
    obtain ⟨x, hx⟩ := key
    obtain ⟨s', hs'⟩ := ih x (inv_step P hi o hx).1 fun o ho => hg o (by simp [ho])
    exact ⟨s', by rw [run, hx]; exact hs'⟩

/-- So from the beginning. What is missing: answers that are not good, for which
`no_uuid_ub`, `no_list_ub`, `short_anchor_ub` and `ep_type_ub` are witnesses. -/
theorem safe_partial (P : Reader) (me : Id) (owners : List Id) (ops : List Op) (hg : ∀ o ∈ ops, o.Good) :
    ∃ s', run P ops { me := me, owners := owners } = .ok s' := safe P ops _ (inv_init me owners) hg

/-- The tool. -/
def exSt : St := { me := exId 1, owners := [exId 2] }

/-- An answer to a discovery without `deviceuuid` makes the tool use a UUID that has no
value (security/oc_obt.c:616-645). -/
theorem no_uuid_ub : run exP [.discover true, .doxm 0 0 [(b "owned", .bool false)] exSrc true] exSt = .ub := rfl

/-- An answer that is no list of links fails an assertion (security/oc_obt.c:559). -/
theorem no_list_ub : run exP [.discover true, .multi 0 0 [(b "x", .int 1)] exSrc] exSt = .ub := rfl

/-- Of an anchor that is shorter than the scheme what follows it is read
(security/oc_obt.c:576). -/
theorem short_anchor_ub : run exP [.discover true, .multi 0 0 [([], .obj [(b "anchor", .str [1])])] exSrc] exSt = .ub := rfl

/-- A property `ep` that is a number is used as a text (security/oc_obt.c:483-489). -/
theorem ep_type_ub : pick exP exSrc [(b "ep", .int 1)] = .ub := by decide

/-- A text of another name is used as an endpoint. -/
theorem ep_name_false : pick exP exSrc [(b "x", .str [6])] = .ok (some ⟨false, true, [6]⟩) := by decide

/-- When a device answers two discoveries before it is asked for its endpoints, the
application is told twice for the second and never for the first
(security/oc_obt.c:656). -/
theorem two_false : ∃ ops s, run exP ops exSt = .ok s ∧
    s.log = [⟨1, exId 3, [⟨false, true, [6]⟩]⟩, ⟨1, exId 3, [⟨false, true, [6]⟩]⟩] ∧ s.cbs = [0, 1] ∧ s.gets = [] := by
  refine ⟨[.discover true, .discover true,
    .doxm 0 0 [(b "owned", .bool false), (b "deviceuuid", .str (Sec.uuidText (exId 3)))] exSrc true,
    .doxm 1 0 [(b "owned", .bool false), (b "deviceuuid", .str (Sec.uuidText (exId 3)))] exSrc true,
    .answer (exId 3) 0 [([], .obj (linkOf (exId 3) [] [] [] [([6], none)]))] exSrc,
    .answer (exId 3) 0 [([], .obj (linkOf (exId 3) [] [] [] [([6], none)]))] exSrc], _, rfl, ?_, rfl, rfl⟩
  rfl

/-- An answer that has only endpoints of the other family leaves a device of the tool
without any, though it had some (security/oc_obt.c:599-601). -/
theorem family_false : ∃ ops s s', run exP ops exSt = .ok s ∧ (s.devs.map fun d => d.eps.length) = [1] ∧
    step exP s (.multi 0 0 [([], .obj (linkOf (exId 2) [] [] [] [([4], none)]))] exSrc) = .ok s' ∧
    (s'.devs.map fun d => d.eps.length) = [0] :=
  ⟨[.discover true, .multi 0 0 [([], .obj (linkOf (exId 2) [] [] [] [([6], none)]))] exSrc], _, _, rfl, rfl, rfl, rfl⟩

end Verif.ObtFind
