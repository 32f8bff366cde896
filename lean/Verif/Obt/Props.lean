import Verif.Obt.Progress
/-!
Properties of the onboarding tool (C120, C121).
-/
namespace Verif.Obt

/-- C120, C121.  Every history in which the application and its environment keep to `Fair`
is defined: no cached device is used or freed after it was freed.  Without `Fair` this is
false, see `retry_in_callback_ub`, `two_transfers_ub`, `late_endpoints_ub`,
`pin_credential_ub` and `two_resets_ub`. -/
theorem run_safe_partial {s : St} (h : Init s) (ops : List Op) (hf : FairRun s ops) : ∃ s', run s ops = .ok s' := by
  obtain ⟨s', h1, _⟩ := run_inv (init_inv h) ops hf
  exact ⟨s', h1⟩

/-- C120.  Whatever devices answer, when the application is told that a transfer of
ownership succeeded, the device is onboarded: it has the method, the tool as owner of
every security resource, the UUID the application is told, the key the tool holds, the
access control entry of the tool, and is in normal operation; when it is told that it
failed, the tool holds no credential for the device. -/
theorem transfer_truthful_partial {s s' : St} (h : Init s) {ops : List Op} (hf : FairRun s ops) (e : run s ops = .ok s')
    {x : Cb} (hx : x ∈ s'.log) {m : Method} (hk : x.kind = .otm m) :
    (x.ok = true → Onboarded s'.me s'.domain m.oxm x.uuid x.dev x.kept) ∧ (x.ok = false → x.kept = []) := by
  obtain ⟨s2, h1, hI⟩ := run_inv (init_inv h) ops hf
  rw [e] at h1; cases h1
  have := hI.logSpec x hx
  unfold CbSpec at this
  rw [hk] at this
  exact this

/-- C121.  When the application is told that a hard reset, an access control entry or
pairwise credentials succeeded, the devices are in the state it asked for: reset and
without owner, with the tool's credential gone; with the entry and in normal operation;
both with the same new key for one another and in normal operation. -/
theorem provisioning_truthful_partial {s s' : St} (h : Init s) {ops : List Op} (hf : FairRun s ops) (e : run s ops = .ok s')
    {x : Cb} (hx : x ∈ s'.log) (hok : x.ok = true) :
    (x.kind = .reset → x.dev.dos = .reset ∧ x.dev.owned = false ∧ x.dev.key = none ∧ x.dev.acl = [] ∧ x.kept = []) ∧
    (∀ n, x.kind = .ace n → n ∈ x.dev.aces ∧ x.dev.dos = .rfnop) ∧
    (x.kind = .pair → ∃ k, (x.uuid2, k) ∈ x.dev.peers ∧ (x.uuid, k) ∈ x.dev2.peers ∧ x.dev.dos = .rfnop ∧ x.dev2.dos = .rfnop) ∧
    (x.kind = .pin → x.dev.sel = 1) := by
  obtain ⟨s2, h1, hI⟩ := run_inv (init_inv h) ops hf
  rw [e] at h1; cases h1
  have := hI.logSpec x hx
  unfold CbSpec at this
  refine ⟨?_, ?_, ?_, ?_⟩
  · intro hk; rw [hk] at this; exact this hok
  · intro n hk; rw [hk] at this; exact this hok
  · intro hk; rw [hk] at this; exact this hok
  · intro hk; rw [hk] at this; exact this hok

/-- C120, C121.  An application is called at most once for every sequence, and not before
its end. -/
theorem called_once_partial {s s' : St} (h : Init s) {ops : List Op} (hf : FairRun s ops) (e : run s ops = .ok s') :
    (s'.log.map (·.ctx)).Nodup ∧ ∀ c ∈ s'.ctxs, ∀ x ∈ s'.log, x.ctx ≠ c.id := by
  obtain ⟨s2, h1, hI⟩ := run_inv (init_inv h) ops hf
  rw [e] at h1; cases h1
  exact ⟨hI.logNodup, fun c hc x hx g => (hI.logCtx x hx).2 c hc g.symm⟩

/-- C120, C121.  A sequence for which the call returned 0 runs with one outstanding
request; when 23 of its requests have been answered or reported as failed, the
application has been called. -/
theorem answered_ends_partial {s s1 s2 s3 : St} (h : Init s) {ops ops' : List Op} (hf : FairRun s ops) (e : run s ops = .ok s1)
    {k : Kind} {u u2 : Id} {sent cred : Bool} (hfs : Fair s1 (.start k u u2 sent cred))
    (hs : start quiet s1 k u u2 sent cred = .ok (s2, true)) (hf' : FairRun s2 ops') (e' : run s2 ops' = .ok s3) :
    Ended s3 s1.next ∨ (Running s3 s1.next (answers s1.next ops') ∧ answers s1.next ops' ≤ 22) := by
  obtain ⟨s1', h1, hI⟩ := run_inv (init_inv h) ops hf
  rw [e] at h1; cases h1
  obtain ⟨s2', b, h2, hI2⟩ := start_inv hI k u u2 sent cred hfs
  rw [hs] at h2; cases h2
  rcases start_shape hs with ⟨_, g⟩ | g
  · cases g
  · rcases g.new with g | g
    · obtain ⟨c, hc, hce⟩ := List.mem_map.1 g
      obtain ⟨p, hp, hpc, _⟩ := hI2.ctxPend c hc (by simp)
      have hr : Running s2 s1.next 0 := ⟨g, p, hp, hpc.trans hce, Nat.zero_le _⟩
      rcases running_run hI2 hf' hr e' with g | g
      · exact .inl g
      · rw [Nat.zero_add] at g
        refine .inr ⟨g, ?_⟩
        obtain ⟨_, q, _, _, hq⟩ := g
        exact Nat.le_trans hq (stage_le _)
    · exact .inl (ended_run hI2 hf' g e')

/-- C120.  A cached device is forgotten when its transfer fails and when it is reset, and it is
not used again. -/
theorem forgotten_partial {s s' : St} (h : Init s) {ops : List Op} (hf : FairRun s ops) (e : run s ops = .ok s')
    {x : Cb} (hx : x ∈ s'.log)
    (hg : (∃ m, x.kind = .otm m ∧ x.ok = false) ∨ (x.kind = .pin ∧ x.ok = false) ∨ x.kind = .reset) :
    s'.handle x.h = none ∧ x.h ∉ s'.cache ∧ x.h ∉ s'.devs ∧ ∀ c ∈ s'.ctxs, c.h ≠ x.h ∧ c.h2 ≠ x.h := by
  obtain ⟨s2, h1, hI⟩ := run_inv (init_inv h) ops hf
  rw [e] at h1; cases h1
  have hn : s'.handle x.h = none := by
    apply (hI.logGone x hx).2
    rcases hg with ⟨m, hk, ho⟩ | ⟨hk, ho⟩ | hk <;> simp [Cb.gone, *]
  refine ⟨hn, ?_, ?_, ?_⟩
  · intro hm; obtain ⟨y, hy⟩ := hI.cache _ hm; rw [hn] at hy; cases hy
  · intro hm; obtain ⟨y, hy⟩ := hI.devs _ hm; rw [hn] at hy; cases hy
  · intro c hc
    obtain ⟨a, b, hb⟩ := hI.base c hc
    exact ⟨fun g => (by have := hb.h1; rw [g, hn] at this; cases this), fun g => (by have := hb.h2'; rw [g, hn] at this; cases this)⟩

/-- C120.  The credential made from a PIN does not outlive the transfer it is for, and there
is at most one credential for a device. -/
theorem pin_credential_temporary_partial {s s' : St} (h : Init s) {ops : List Op} (hf : FairRun s ops) (e : run s ops = .ok s') :
    (∀ c ∈ s'.creds, c.owner = false → ∃ k ∈ s'.ctxs, k.kind = .otm .rdp ∧ ∃ x, s'.handle k.h = some x ∧ x.uuid = c.subj) ∧
    ∀ u, (s'.creds.filter (·.subj == u)).length ≤ 1 := by
  obtain ⟨s2, h1, hI⟩ := run_inv (init_inv h) ops hf
  rw [e] at h1; cases h1
  exact ⟨hI.temp, hI.one⟩

/-! Concrete histories. -/

/-- A check of `Fair` that can be run. -/
def busyB (s : St) (a : Nat) : Bool :=
  s.ctxs.any fun c => s.heap.any fun x => (x.id == c.h || x.id == c.h2) && x.addr == a

theorem busyB_sound {s : St} {a : Nat} (h : busyB s a = false) : ¬ BusyAt s a := by
  rintro ⟨c, hc, x, hx, ha⟩
  have : busyB s a = true := by
    unfold busyB
    rw [List.any_eq_true]
    refine ⟨c, hc, ?_⟩
    rw [List.any_eq_true]
    rcases hx with hx | hx
    · exact ⟨x, List.mem_of_find?_eq_some hx, by simp [handle_id hx, ha]⟩
    · exact ⟨x, List.mem_of_find?_eq_some hx, by simp [handle_id hx, ha]⟩
  rw [h] at this; cases this

/-- `IdleFor` that can be run. -/
def idleB (s : St) (u : Id) : Bool := s.heap.all fun x => x.uuid != u || !busyB s x.addr

/-- `FreeFor` that can be run. -/
def freeB (s : St) (u : Id) : Bool := s.heap.all fun x => x.uuid != u || (!busyB s x.addr && !s.eps.contains x.id)

theorem idleB_sound {s : St} {u : Id} (h : idleB s u = true) : IdleFor s u := by
  intro i x hx hu
  unfold idleB at h
  rw [List.all_eq_true] at h
  have := h x (List.mem_of_find?_eq_some hx)
  simp only [hu, bne_self_eq_false, Bool.false_or, Bool.not_eq_true'] at this
  exact busyB_sound this

theorem freeB_sound {s : St} {u : Id} (h : freeB s u = true) : FreeFor s u := by
  intro i x hx hu
  unfold freeB at h
  rw [List.all_eq_true] at h
  have := h x (List.mem_of_find?_eq_some hx)
  simp only [hu, bne_self_eq_false, Bool.false_or, Bool.and_eq_true, Bool.not_eq_true'] at this
  refine ⟨busyB_sound this.1, ?_⟩
  intro hm
  have h2 := this.2
  rw [handle_id hx] at h2
  simp [hm] at h2

/-- `Fair` that can be run. -/
def fairB (s : St) : Op → Bool
  | .start k u u2 _ cred => cred && u != s.me && freeB s u &&
      (k != .pair || (freeB s u2 && u != u2 && s.heap.all fun x => s.heap.all fun y => x.uuid != u || y.uuid != u2 || x.addr != y.addr))
  | .respond _ r again => again.isNone && r.code != requestTimeout && s.creds.all (·.subj != r.fresh) && s.heap.all (·.uuid != r.fresh)
  | .discover a | .discoverOwned a => !busyB s a && idleB s (s.net a).uuid
  | .endpoints _ _ => true
  | .env a _ => !busyB s a

theorem fairB_sound {s : St} {op : Op} (h : fairB s op = true) : Fair s op := by
  cases op with
  | start k u u2 sent cred =>
    simp only [fairB, Bool.and_eq_true, bne_iff_ne, Bool.or_eq_true] at h
    obtain ⟨⟨⟨h1, h2⟩, h3⟩, h4⟩ := h
    refine ⟨h1, h2, freeB_sound h3, ?_⟩
    intro hk
    rcases h4 with h4 | ⟨⟨h4, h5⟩, h6⟩
    · exact absurd hk h4
    · refine ⟨freeB_sound h4, h5, ?_⟩
      intro i x j y hx hy hxu hyu
      rw [List.all_eq_true] at h6
      have h7 := h6 x (List.mem_of_find?_eq_some hx)
      rw [List.all_eq_true] at h7
      have h8 := h7 y (List.mem_of_find?_eq_some hy)
      simpa [hxu, hyu] using h8
  | respond i r again =>
    simp only [fairB, Bool.and_eq_true, bne_iff_ne, List.all_eq_true, Option.isNone_iff_eq_none] at h
    obtain ⟨⟨⟨h1, h2⟩, h3⟩, h4⟩ := h
    exact ⟨h1, h2, h3, fun i x hx => h4 x (List.mem_of_find?_eq_some hx)⟩
  | discover a =>
    simp only [fairB, Bool.and_eq_true, Bool.not_eq_true'] at h
    exact ⟨busyB_sound h.1, idleB_sound h.2⟩
  | discoverOwned a =>
    simp only [fairB, Bool.and_eq_true, Bool.not_eq_true'] at h
    exact ⟨busyB_sound h.1, idleB_sound h.2⟩
  | endpoints a b => trivial
  | env a d =>
    simp only [fairB, Bool.not_eq_true'] at h
    exact busyB_sound h

/-- `FairRun` that can be run. -/
def fairRunB (s : St) : List Op → Bool
  | [] => true
  | op :: ops => fairB s op && match step s op with
    | .ok s' => fairRunB s' ops
    | .ub => true

theorem fairRunB_sound {s : St} {ops : List Op} (h : fairRunB s ops = true) : FairRun s ops := by
  induction ops generalizing s with
  | nil => trivial
  | cons op ops ih =>
    simp only [fairRunB, Bool.and_eq_true] at h
    refine ⟨fairB_sound h.1, ?_⟩
    intro s' e
    rw [e] at h
    exact ih h.2

/-- The tool (100) and two devices. -/
def ex0 : St where
  me := 100
  domain := 55
  net := fun a => if a = 1 then { uuid := 7 } else { uuid := 8 }

theorem ex0_init : Init ex0 := by constructor <;> first | rfl | (intro x hx; cases hx) | (intro u; simp [ex0])

/-- Answers that let a sequence succeed. -/
def good (i n : Nat) (fresh : Id) : List Op :=
  (List.range n).map fun j => .respond i { code := 2, oxms := some [0, 2], fresh := fresh + j, sess := 9, secret := 77 } none

/-- Two devices are onboarded, one is in no security domain; they get a pairwise key; then
one is reset. -/
def exOps : List Op :=
  [.discover 1, .endpoints 0 true, .discover 2, .endpoints 1 true, .start (.otm .jw) 7 0 true true] ++ good 2 9 200 ++
  [.respond 2 { code := 9, fresh := 60 } none] ++ good 2 5 300 ++
  [.start (.otm .cert) 8 0 true true] ++ good 3 15 400 ++
  [.start .pair 203 403 true true] ++ good 4 6 500 ++
  [.start (.ace 3) 203 0 true true] ++ good 5 3 500 ++
  [.start .reset 203 0 true true] ++ good 6 1 500

/-- What happened in a history. -/
def obs (o : Out St) : Option (List (Nat × Bool × Id)) :=
  match o with
  | .ok s => some (s.log.map fun e => (e.ctx, e.ok, e.uuid))
  | .ub => none

/-- The hypotheses of the theorems are met by a history in which everything succeeds. -/
example : FairRun ex0 exOps := fairRunB_sound (by decide +kernel)
example : obs (run ex0 exOps) = some [(2, true, 203), (3, true, 403), (4, true, 203), (5, true, 203), (6, true, 203)] := by decide +kernel

/-- A history in which a transfer with a PIN fails half-way. -/
def exFail : List Op :=
  [.discover 1, .endpoints 0 true, .start .pin 7 0 true true, .respond 1 { oxms := some [1], fresh := 30 } none,
   .respond 1 { code := 2, fresh := 30 } none, .start (.otm .rdp) 7 0 true true] ++ good 2 7 400 ++
  [.respond 2 { code := 24, applied := true, fresh := 32 } none]

example : FairRun ex0 exFail := fairRunB_sound (by decide +kernel)
example : obs (run ex0 exFail) = some [(1, true, 7), (2, false, 401)] := by decide +kernel

/-- Undefined behaviour in a history. -/
def isUb (o : Out St) : Bool :=
  match o with
  | .ub => true
  | .ok _ => false

theorem ub_of {o : Out St} (h : isUb o = true) : o = .ub := by
  cases o with
  | ub => rfl
  | ok s => cases h

/-- A device that was discovered and whose endpoints are known. -/
def exSeen : List Op := [.discover 1, .endpoints 0 true]

/-- C120, refuted: an application may start the transfer again in the callback that tells
its failure.  `free_otm_state` (security/oc_obt.c:446-450) frees the device after the
callback, so the new transfer holds a freed device; its next answer uses it. -/
theorem retry_in_callback_ub :
    run ex0 (exSeen ++ [.start (.otm .jw) 7 0 true true, .respond 1 { code := 24 } (some (.otm .jw, true)),
      .respond 2 { oxms := some [0] } none]) = .ub := ub_of (by decide +kernel)

/-- C120, refuted: two transfers of one device are accepted (nothing checks for a running
one, security/oc_obt_otm_justworks.c:689-712); when the first fails it frees the device the
second uses. -/
theorem two_transfers_ub :
    run ex0 (exSeen ++ [.start (.otm .jw) 7 0 true true, .start (.otm .jw) 7 0 true true, .respond 1 { code := 24 } none,
      .respond 2 { oxms := some [0] } none]) = .ub := ub_of (by decide +kernel)

/-- C120, refuted: the request for the endpoints of a discovered device keeps a pointer to
it (security/oc_obt.c:651-653); if a transfer fails before the answer arrives, the answer
writes to the freed device (547-607). -/
theorem late_endpoints_ub :
    run ex0 [.discover 1, .start (.otm .jw) 7 0 true true, .respond 1 { code := 24 } none, .endpoints 0 true] = .ub :=
  ub_of (by decide +kernel)

/-- C120, refuted: `oc_obt_perform_random_pin_otm` ends a context that has no device yet
when the credential of the PIN cannot be added (security/oc_obt_otm_randompin.c:659-662),
and `free_otm_state` reads the device through a null pointer (security/oc_obt.c:442-443). -/
theorem pin_credential_ub : run ex0 (exSeen ++ [.start (.otm .rdp) 7 0 true false]) = .ub := ub_of (by decide +kernel)

/-- A device that was onboarded. -/
def exOwned : List Op := exSeen ++ [.start (.otm .jw) 7 0 true true] ++ good 1 15 200

/-- C121, refuted: two hard resets of one device are accepted; the answer to the first frees
the device (security/oc_obt.c:918), the second uses it. -/
theorem two_resets_ub :
    run ex0 (exOwned ++ [.start .reset 203 0 true true, .start .reset 203 0 true true, .respond 2 { code := 2 } none,
      .respond 3 { code := 2 } none]) = .ub := ub_of (by decide +kernel)

/-- C121, refuted: a hard reset during provisioning frees the device the provisioning uses. -/
theorem reset_while_provisioning_ub :
    run ex0 (exOwned ++ [.start (.ace 3) 203 0 true true, .start .reset 203 0 true true, .respond 3 { code := 2 } none,
      .respond 2 { code := 2 } none]) = .ub := ub_of (by decide +kernel)

/-- C120, refuted: a call that returns -1 has no effect and does not call back.  When the
first request cannot be sent, the application is called, the call returns -1 and the device
is forgotten (security/oc_obt_otm_justworks.c:717-724). -/
theorem refused_start_false :
    (match run ex0 exSeen with
     | .ok s => match start quiet s (.otm .jw) 7 0 false true with
       | .ok (s', b) => some (b, s'.log.map fun e => (e.ctx, e.ok, e.uuid), s.cache, s'.cache)
       | .ub => none
     | .ub => none) = some (false, [(1, false, 7)], [0], []) := by decide +kernel

/-- C120, refuted: the application is told the UUID it asked for.  The device gets a new
random UUID during the transfer, and that one is told
(security/oc_obt_otm_justworks.c:518-541, security/oc_obt.c:454). -/
theorem told_other_uuid_false : obs (run ex0 exOwned) = some [(1, true, 203)] := by decide +kernel

/-- C120, refuted: a transfer succeeds if the device accepts every request it receives over
a secured connection.  A discovery during the transfer replaces the endpoints of the device
by the one that answered (security/oc_obt.c:236-245), which is not secured, and the device
refuses the next request. -/
theorem rediscovery_false :
    obs (run ex0 (exSeen ++ [.start (.otm .jw) 7 0 true true] ++ good 1 5 200 ++ [.discover 1] ++ good 1 10 300)) =
      some [(1, false, 203)] := by decide +kernel

/-- The device at the first address and the credentials of the tool after a history. -/
def after (o : Out St) : Option (Bool × Dos × Id × Nat) :=
  match o with
  | .ok s => some ((s.net 1).owned, (s.net 1).dos, (s.net 1).devowner, s.creds.length)
  | .ub => none

/-- C120, refuted: a device whose transfer failed has no owner.  If the request after the one
that sets `owned` fails, the device belongs to the tool, is not ready for another transfer, and the
tool has removed its key (security/oc_obt.c:446-449): only a reset at the device helps. -/
theorem orphaned_false :
    after (run ex0 (exSeen ++ [.start (.otm .jw) 7 0 true true] ++ good 1 11 200 ++ [.respond 1 { code := 24, fresh := 300 } none])) =
      some (true, .rfotm, 100, 0) ∧
    obs (run ex0 (exSeen ++ [.start (.otm .jw) 7 0 true true] ++ good 1 11 200 ++ [.respond 1 { code := 24, fresh := 300 } none])) =
      some [(1, false, 203)] := by decide +kernel

/-- C121, refuted: when provisioning fails the device is in normal operation as before.  Nothing
takes it back from RFPRO (security/oc_obt.c:2572-2589, 2616-2636). -/
theorem failed_entry_false :
    after (run ex0 (exOwned ++ [.start (.ace 3) 203 0 true true, .respond 2 { code := 2, fresh := 300 } none,
      .respond 2 { code := 5, fresh := 300 } none])) = some (true, .rfpro, 100, 1) := by decide +kernel

/-- C121, refuted: when a hard reset is told to have failed, the device is not reset.  A device that resets
may close the connection before its answer arrives; the tool then keeps the credential of a
device that has no owner, and has forgotten it. -/
theorem reset_unreported_false :
    after (run ex0 (exOwned ++ [.start .reset 203 0 true true, .respond 2 { code := 24, applied := true, fresh := 300 } none])) =
      some (false, .reset, 0, 1) ∧
    obs (run ex0 (exOwned ++ [.start .reset 203 0 true true, .respond 2 { code := 24, applied := true, fresh := 300 } none])) =
      some [(1, true, 203), (2, false, 203)] := by decide +kernel

/-- The tool holds an owner credential for the device `u`. -/
def Holds (s : St) (u : Id) : Prop := ∃ c ∈ s.creds, c.subj = u ∧ c.owner = true

theorem holds_iff {s : St} {u : Id} : isOwned s u = true ↔ Holds s u := by
  unfold isOwned Holds
  rw [List.any_eq_true]
  simp

/-- C121.  A hard reset, an access control entry or a pairing is refused, and nothing is sent
or changed, unless the tool holds an owner credential of every device involved. -/
theorem not_owned_refused (s : St) (k : Kind) (u u2 : Id) (sent cred : Bool) :
    ((k = .reset ∨ ∃ n, k = .ace n) → ¬ Holds s u → start quiet s k u u2 sent cred = .ok (s, false)) ∧
    (k = .pair → (¬ Holds s u ∨ ¬ Holds s u2) → start quiet s k u u2 sent cred = .ok (s, false)) := by
  constructor
  · intro hk hn
    have h0 : isOwned s u = false := by
      cases hx : isOwned s u with
      | false => rfl
      | true => exact absurd (holds_iff.1 hx) hn
    rcases hk with rfl | ⟨n, rfl⟩ <;> (unfold start; dsimp only; rw [if_pos h0])
  · rintro rfl hn
    have h0 : (isOwned s u = false || isOwned s u2 = false) = true := by
      rcases hn with hn | hn
      · cases hx : isOwned s u with
        | false => simp
        | true => exact absurd (holds_iff.1 hx) hn
      · cases hx : isOwned s u2 with
        | false => simp
        | true => exact absurd (holds_iff.1 hx) hn
    unfold start
    dsimp only
    rw [if_pos h0]

/-- The tool of the example holds a credential of one of two devices. -/
example : Holds { ex0 with creds := [⟨7, true, none⟩] } 7 ∧ ¬ Holds { ex0 with creds := [⟨7, true, none⟩] } 8 := by
  constructor
  · exact ⟨_, List.mem_singleton_self _, rfl, rfl⟩
  · rintro ⟨c, hc, h, _⟩
    rw [List.mem_singleton.1 hc] at h
    exact absurd h (by decide)

/-- C120.  A transfer goes on after the first answer of the device only with the method the
application asked for, and only if the device offers it; otherwise no request is sent. -/
theorem method_offered {s s' : St} {c : Ctx} {h : Handle} {code : Nat} {r : Resp} (hc : c ∈ s.ctxs)
    (e : handler quiet s c h .getDoxm code r = .ok s') :
    (s'.pend = s.pend ∧ c.id ∈ s'.log.map (·.ctx)) ∨
    ∃ p l, s'.pend = s.pend ++ [p] ∧ p.ctx = c.id ∧ p.req = .sel c.kind.oxm ∧ r.oxms = some l ∧ c.kind.oxm ∈ l := by
  have fin : ∀ {ok : Bool}, finish quiet s c ok = .ok s' → s'.pend = s.pend ∧ c.id ∈ s'.log.map (·.ctx) := by
    intro ok e
    have := finish_shape hc e
    exact ⟨this.pend, by rw [this.log]; simp⟩
  unfold handler at e
  split at e
  · exact .inl (fin e)
  · dsimp only at e
    cases ho : r.oxms with
    | none => rw [ho] at e; exact .inl (fin e)
    | some l =>
      rw [ho] at e
      dsimp only at e
      by_cases hm : c.kind.oxm ∈ l
      · rw [if_pos hm] at e
        unfold send at e
        split at e
        · cases e
        · split at e
          · cases e; exact .inr ⟨_, l, rfl, rfl, rfl, rfl, hm⟩
          · exact .inl (fin e)
      · rw [if_neg hm] at e
        exact .inl (fin e)

/-- Both happen: a device that offers the method, and one that does not. -/
example : (match run ex0 (exSeen ++ [.start (.otm .cert) 7 0 true true, .respond 1 { oxms := some [0, 2] } none]) with
      | .ok s => some (s.pend.map (·.req), s.log.map (·.ok)) | .ub => none) = some ([.sel 2], []) ∧
    (match run ex0 (exSeen ++ [.start (.otm .cert) 7 0 true true, .respond 1 { oxms := some [0, 1] } none]) with
      | .ok s => some (s.pend.map (·.req), s.log.map (·.ok)) | .ub => none) = some ([], [false]) := by decide +kernel

/-- C120, C121.  The lists of discovered devices: an answer of the tool's own device or of one that
has an owner changes nothing in the list of devices without owner, and an answer of a device
the tool holds no owner credential for, or of the tool, nothing in the list of owned devices. -/
theorem discovery_filter (s : St) (a : Nat) :
    (((s.net a).owned = true ∨ (s.net a).uuid = s.me) → step s (.discover a) = .ok s) ∧
    ((¬ Holds s (s.net a).uuid ∨ (s.net a).uuid = s.me) → step s (.discoverOwned a) = .ok s) := by
  constructor
  · intro h
    have : ((s.net a).owned || (s.net a).uuid == s.me) = true := by
      rcases h with h | h <;> simp [h]
    unfold step
    dsimp only
    rw [if_pos this]
  · intro h
    have : ¬ (isOwned s (s.net a).uuid && (s.net a).uuid != s.me) = true := by
      rw [Bool.and_eq_true, holds_iff]
      rcases h with h | h
      · exact fun x => h x.1
      · simp [h]
    unfold step
    dsimp only
    rw [if_neg this]

/-- Other devices are taken up. -/
example : (match step ex0 (.discover 1) with | .ok s => some s.cache | .ub => none) = some [0] := by decide

end Verif.Obt
