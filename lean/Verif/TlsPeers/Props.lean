import Verif.TlsPeers.Extra

/-! Properties of the (D)TLS sessions, area TlsPeers. -/

namespace Verif.TlsPeers

open Spec

/-! ### Examples -/

/-- An application that closes nothing by itself. -/
def calm : Cfg := ⟨10, fun _ => none, fun _ => none⟩

/-- A datagram endpoint and two sessions of a TCP endpoint that connected to us. -/
def u (k : Nat) : Ep := ⟨0, k, false, false, 0⟩
def t (k n : Nat) : Ep := ⟨0, k, true, true, n⟩

/-- Devices in normal operation, devices without an owner. -/
def normal : St := init (fun _ => .rfnop) (fun _ => true)
def unowned : St := init (fun _ => .rfotm) (fun _ => true)

theorem calm_quiet : Quiet calm := fun _ => ⟨rfl, rfl⟩

/-- The result of a run that has one. -/
def res : Out St → St
  | .ok s => s
  | .ub => normal

/-- A client of ours opens a session, the handshake ends, the queue is written; another
device opens one to us. -/
def story : List Op :=
  [.req ⟨1, u 1⟩, .run { mem := some 100 }, .req ⟨2, u 1⟩, .run {}, .net ⟨3, u 1⟩, .run {}, .run { hs := .over, taken := 1 },
    .net ⟨4, u 2⟩, .run {}, .run { mem := some 200 }, .run {}]

/-! ### References -/

/-- Every message handed to the handler is either still held by it, in an event or in
one of the queues of a session, or was released exactly once. -/
theorem refs_conserved (c : Cfg) (h0 : 0 < c.timeout) (dos : Nat → Dos) (oxm : Nat → Bool) (ops : List Op) (s : St)
    (h : run c (init dos oxm) ops = .ok s) (m : Msg) : s.inp.count m = (held s).count m + s.rel.count m := by
  have := (run_base h0 ops (init_base c dos oxm) h).cons m
  simp only [List.count_nil, Nat.add_zero] at this
  rw [this]
  unfold held
  rw [List.count_append]
  rfl

example : (run calm normal story).bind (fun s => .ok (s.inp.length, s.out.map (·.id), (held s).map (·.id), s.rel.map (·.id))) =
    .ok (4, [1, 2], [4], [3, 1, 2]) := by decide

/-! ### No use of what was freed -/

/-- When no roles are asserted, the application closes no sessions from within its
callbacks and the device does not send to an endpoint that is just opening a session
to it, no event and no loop ever uses a session that was freed, whatever mbedtls and
the network do; and all the functions that close sessions come to an end. -/
theorem no_freed_partial (c : Cfg) (h0 : 0 < c.timeout) (hq : Quiet c) (dos : Nat → Dos) (oxm : Nat → Bool) (ops : List Op)
    (ht : TameRun c (init dos oxm) ops) : ∃ s, run c (init dos oxm) ops = .ok s ∧
      ∀ a, (Ev.read a ∈ s.q ∨ Ev.write a ∈ s.q) → ∃ p ∈ s.peers, p.addr = a := by
  obtain ⟨s, h1, h2⟩ := run_safe hq h0 ops (init_base c dos oxm) ⟨by intro a h; simp [init] at h, rfl⟩ ht
  exact ⟨s, h1, h2.ev⟩

/-- A step is tame, as a check. -/
def tame1 (s : St) : Op → Bool
  | .run o => o.roles == none &&
      match s.q with
      | .send m :: _ => s.peers.all fun p => !eqEp p.ep m.ep || p.over || p.client
      | _ => true
  | _ => true

/-- Each step of a list, in the state it is taken in. -/
def tameB (c : Cfg) : St → List Op → Bool
  | _, [] => true
  | s, op :: ops => tame1 s op && match step c s op with
    | .ok s' => tameB c s' ops
    | .ub => true

theorem tameB_run {c : Cfg} (ops : List Op) {s : St} (h : tameB c s ops = true) : TameRun c s ops := by
  induction ops generalizing s with
  | nil => trivial
  | cons op ops ih =>
    rw [tameB, Bool.and_eq_true] at h
    refine ⟨?_, ?_⟩
    · cases op with
      | run o =>
        have h1 := h.1
        rw [tame1, Bool.and_eq_true, beq_iff_eq] at h1
        refine ⟨h1.1, ?_⟩
        intro m l hs p hp he
        have h2 := h1.2
        rw [hs] at h2
        dsimp only at h2
        have := List.all_eq_true.1 h2 p hp
        simp only [he, Bool.not_true, Bool.false_or, Bool.or_eq_true] at this
        exact this
      | _ => trivial
    · intro s' hs
      have := h.2
      rw [hs] at this
      exact ih this

example : TameRun calm normal (story ++ [.closeAll]) := tameB_run _ (by decide)

/-- A device that sends to an endpoint which is opening a session to it throws the
half open session away but not the events of that session (oc_tls.c:347-377, 2689-2698).
The next time a session is closed the function that drops events
(oc_tls.c:399-448) reads the memory of the session that was freed. -/
theorem stale_event_ub : Quiet calm ∧
    run calm normal [.net ⟨1, u 1⟩, .req ⟨2, u 1⟩, .run { mem := some 100 }, .run { mem := some 200 }, .close (u 1)] = .ub :=
  ⟨calm_quiet, rfl⟩

/-- A TCP session that is closed while the assertion of roles was not answered: the
callback asks for writing to the session (oc_tls.c:2790-2794) that is just being freed
(oc_tls.c:540-545), and the end of the TCP session drops events and reads it. -/
theorem assert_closed_ub : Quiet calm ∧ run calm normal
    [.req ⟨1, t 1 0⟩, .run { mem := some 100 }, .net ⟨2, t 1 1⟩, .run {}, .run { hs := .over, taken := 1, roles := some true },
      .close (t 1 1)] = .ub :=
  ⟨calm_quiet, rfl⟩

/-- An application that answers the end of one session by closing another one, while
all are closed: the loop (oc_tls.c:3089-3114) has read the pointer to the next session
before, and that one is freed. -/
theorem callback_close_ub : ∃ c : Cfg, c.timeout = 10 ∧ (∀ e, c.onStart e = none) ∧ run c normal
    [.net ⟨1, u 1⟩, .run { mem := some 100 }, .run {}, .net ⟨2, u 2⟩, .run { mem := some 200 }, .run {}, .closeAll] = .ub :=
  ⟨⟨10, fun e => if e = u 1 then some (u 2) else none, fun _ => none⟩, rfl, fun _ => rfl, rfl⟩

/-! ### Closing -/

/-- What is known of a state that was reached. -/
theorem reached (c : Cfg) (h0 : 0 < c.timeout) (dos : Nat → Dos) (oxm : Nat → Bool) (ops : List Op) (s : St)
    (h : run c (init dos oxm) ops = .ok s) : Base c [] s := run_base h0 ops (init_base c dos oxm) h

/-- Two sessions are never the same: not in memory, not by their endpoints. -/
theorem sessions_distinct (c : Cfg) (h0 : 0 < c.timeout) (dos : Nat → Dos) (oxm : Nat → Bool) (ops : List Op) (s : St)
    (h : run c (init dos oxm) ops = .ok s) :
    (s.peers.map (·.addr)).Nodup ∧ s.peers.Pairwise fun p q => eqEp p.ep q.ep = false :=
  ⟨(reached c h0 dos oxm ops s h).nd, (reached c h0 dos oxm ops s h).pw⟩

/-- The step closes sessions of this endpoint. -/
def Closes (ep : Ep) (op : Op) : Prop := op = .close ep ∨ ∃ n, op = .remove ep n

/-- Closing a datagram endpoint, or the endpoint of a session, closes exactly the
sessions of that endpoint; no received or decrypted message of a session that was closed is left,
and no message that waits to be sent to it. -/
theorem closed_exactly (c : Cfg) (h0 : 0 < c.timeout) (hq : Quiet c) (dos : Nat → Dos) (oxm : Nat → Bool) (ops : List Op) (s s' : St)
    (h : run c (init dos oxm) ops = .ok s) (ep : Ep) (op : Op) (hop : Closes ep op) (hs : step c s op = .ok s')
    (he : (ep.tcp = false ∧ ep.sess = 0) ∨ ∃ p ∈ s.peers, p.ep = ep) :
    (∀ p, p ∈ s'.peers ↔ p ∈ s.peers ∧ eqEp p.ep ep = false) ∧
      ∀ p ∈ s.peers, eqEp p.ep ep = true → Gone s' p.ep := by
  have b := reached c h0 dos oxm ops s h
  have b' : Base c [] s' := step_base h0 b hs
  obtain ⟨t, ht, hw, htp⟩ : ∃ t, closes t ∧ perform c {} [t] s = .ok s' ∧ tep t = [ep] := by
    rcases hop with rfl | ⟨n, rfl⟩
    · exact ⟨.conn ep false, trivial, hs, rfl⟩
    · exact ⟨.rm ep n, trivial, hs, rfl⟩
  have hall : ∀ x ∈ [t], closes x := fun x hx => by rw [List.mem_singleton.1 hx]; exact ht
  have hu : (ep.tcp = false ∧ ep.sess = 0) ∨ ∀ p ∈ s.peers, ∀ q ∈ s.peers, eqEp p.ep ep = true → eqEp q.ep ep = true → p = q := by
    rcases he with he | ⟨x, hx, rfl⟩
    · exact .inl he
    · right
      intro p hp q hq' e1 e2
      rw [pairwise_ne b.pw hp hx e1, pairwise_ne b.pw hq' hx e2]
  have hgone := close_gone _ _ hall hw b.nd t ep (List.mem_singleton.2 rfl) htp hu
  have hsub := close_sub _ _ hall hw
  refine ⟨fun p => ⟨fun hp => ⟨hsub p hp, hgone p hp⟩, fun hp => ?_⟩, ?_⟩
  · refine close_kept hq _ _ hall hw b.nd b.pw p hp.1 ?_
    intro x hx e hxe
    rw [List.mem_singleton.1 hx, htp] at hxe
    rw [List.mem_singleton.1 hxe]
    exact hp.2
  · intro p hp hpe
    rcases (close_msgs _ _ hall hw b.nd).2.1 p hp with h | h
    · have := hgone p h
      rw [hpe] at this; cases this
    · refine ⟨?_, h.1, h.2⟩
      intro q hq'
      cases hm : eqEp q.ep p.ep with
      | false => rfl
      | true =>
        have := pairwise_ne b.pw (hsub q hq') hp hm
        subst this
        have := hgone q hq'
        rw [hpe] at this; cases this

/-- Removing a datagram endpoint also drops its messages when it has no session. -/
theorem removed_gone (c : Cfg) (h0 : 0 < c.timeout) (dos : Nat → Dos) (oxm : Nat → Bool) (ops : List Op) (s s' : St)
    (h : run c (init dos oxm) ops = .ok s) (ep : Ep) (n : Bool) (hs : step c s (.remove ep n) = .ok s') (ht : ep.tcp = false)
    (h1 : ep.sess = 0) : Gone s' ep := by
  have b := reached c h0 dos oxm ops s h
  have hall : ∀ x ∈ [Task.rm ep n], closes x := fun x hx => by rw [List.mem_singleton.1 hx]; trivial
  have := (close_msgs _ _ hall hs b.nd).2.2 ep n ht h1 (List.mem_singleton.2 rfl)
  exact ⟨close_gone _ _ hall hs b.nd (.rm ep n) ep (List.mem_singleton.2 rfl) rfl (.inl ⟨ht, h1⟩), this.1, this.2⟩

example : (run calm normal (story ++ [.close (u 1)])).bind (fun s => .ok (s.peers.map (·.addr), s.q)) =
    .ok ([200], []) ∧
    (run calm normal [.net ⟨1, u 1⟩, .net ⟨2, u 2⟩, .remove (u 1) false]).bind (fun s => .ok s.q) = .ok [.recv ⟨2, u 2⟩] := by decide

/-- Closing a TCP endpoint without naming the session closes one of its sessions only
(oc_tls.c:2323-2327). -/
theorem tcp_close_one_false : ∃ ops s s', run calm normal ops = .ok s ∧ step calm s (.close (t 1 0)) = .ok s' ∧
    (s.peers.filter fun p => eqEp p.ep (t 1 0)).length = 2 ∧ (s'.peers.filter fun p => eqEp p.ep (t 1 0)).length = 1 := by
  refine ⟨[.net ⟨1, t 1 5⟩, .run { mem := some 100 }, .run {}, .net ⟨2, t 1 6⟩, .run { mem := some 200 }, .run {}],
    _, _, rfl, rfl, by decide, by decide⟩

/-- A reset of a device closes all its sessions and no others, and schedules no other
reset. -/
theorem reset_closes (c : Cfg) (h0 : 0 < c.timeout) (hq : Quiet c) (dos : Nat → Dos) (oxm : Nat → Bool) (ops : List Op) (s s' : St)
    (h : run c (init dos oxm) ops = .ok s) (d : Nat) (l : List Ev) (hd : s.q = .closeAll d :: l) (o : Or)
    (hs : step c s (.run o) = .ok s') :
    s'.peers = s.peers.filter (fun p => d != p.ep.dev) ∧ s'.resets = s.resets := by
  have b := reached c h0 dos oxm ops s h
  rw [step, hd] at hs
  have := scan_eff hq (some d) s.peers [] _ { s with q := l } s' rfl b.nd b.pw hs
  refine ⟨?_, by simpa using this.2.1⟩
  rw [this.1, List.nil_append]
  refine congrArg (fun f => s.peers.filter f) ?_
  funext p
  simp [bne]

/-- Closing all sessions leaves none; a device without an owner is reset when the
session of its onboarding is closed. -/
theorem all_closed (c : Cfg) (h0 : 0 < c.timeout) (hq : Quiet c) (dos : Nat → Dos) (oxm : Nat → Bool) (ops : List Op) (s s' : St)
    (h : run c (init dos oxm) ops = .ok s) (hs : step c s .closeAll = .ok s') :
    s'.peers = [] ∧ s'.resets = s.resets ++ (s.peers.filter fun p => p.doc && s.dos p.ep.dev == .rfotm).map (·.ep.dev) := by
  have b := reached c h0 dos oxm ops s h
  have := scan_eff hq none s.peers [] _ s s' rfl b.nd b.pw hs
  refine ⟨?_, by simpa [resetsOf] using this.2.1⟩
  rw [this.1]
  simp

example : (run calm unowned [.net ⟨1, u 1⟩, .run { mem := some 100 }, .net ⟨2, ⟨1, 1, false, false, 0⟩⟩, .run {}, .run { mem := some 200 },
    .reset 1, .run {}, .run {}]).bind (fun s => .ok (s.peers.map (·.addr), s.resets)) = .ok ([100], []) ∧
    (run calm unowned [.net ⟨1, u 1⟩, .run { mem := some 100 }, .closeAll]).bind (fun s => .ok (s.peers.map (·.addr), s.resets)) =
      .ok ([], [0]) := by decide

/-! ### Onboarding -/

/-- A device that waits for its owner has at most one session as long as it waits, if
it had at most one when it began to. -/
theorem onboarding_single (c : Cfg) (d : Nat) (ops : List Op) (s s' : St) (hd : s.dos d = .rfotm) (ho : One s d)
    (hop : ∀ op ∈ ops, ∀ x y, op ≠ .state d x y) (h : run c s ops = .ok s') : s'.dos d = .rfotm ∧ One s' d := by
  induction ops generalizing s with
  | nil => cases h; exact ⟨hd, ho⟩
  | cons op ops ih =>
    rw [run] at h
    obtain ⟨s1, h1, h2⟩ := bind_ok h
    have := step_G (d := d) (hop op (List.mem_cons_self ..)) h1
    exact ih s1 (this.1.trans hd) (this.2 hd ho) (fun x hx => hop x (List.mem_cons_of_mem _ hx)) h2

/-- A session over TCP that is opened for an endpoint without session number gets a number of its own:
the one that is next, which is then given out to no other. -/
theorem numbered (c : Cfg) (ep : Ep) (cl : Bool) (s s' : St) (o : Or) (a : Nat) (ht : ep.tcp = true) (hs : ep.sess = 0)
    (hg : ∀ p ∈ s.peers, eqEp p.ep ep = false) (h : addOrGet c o ep cl s = .ok (s', some a)) :
    s'.next = s.next + 1 ∧ s'.peers = s.peers ++ [⟨a, { ep with sess := s.next }, cl, s.dos ep.dev == .rfotm, false, [], [], 0⟩] := by
  unfold addOrGet at h
  have : getPeer s ep = none := by
    unfold getPeer
    rw [List.find?_eq_none]
    intro p hp
    rw [hg p hp]
    exact fun h => nomatch h
  rw [this] at h
  dsimp only at h
  unfold addNew at h
  split at h
  · cases h
  · split at h
    · cases h
    · split at h
      · cases h
      · split at h
        · obtain ⟨x, -, h2⟩ := bind_ok h
          cases h2
        · cases h
          simp [addPeer, newPeer, newEp, ht, hs]

example : ∃ s, addOrGet calm { mem := some 100 } ⟨0, 1, true, false, 0⟩ true normal = .ok (s, some 100) ∧ normal.peers = [] :=
  ⟨_, rfl, rfl⟩

/-- Without an ownership transfer method that was selected, no session is added to a
device that waits for its owner, whoever asks. -/
theorem onboarding_method (c : Cfg) (ep : Ep) (cl : Bool) (s : St) (o : Or) (hd : s.dos ep.dev = .rfotm) (ho : s.oxm ep.dev = false)
    (hg : ∀ p ∈ s.peers, eqEp p.ep ep = false) : addOrGet c o ep cl s = .ok (s, none) := by
  unfold addOrGet
  have : getPeer s ep = none := by
    unfold getPeer
    rw [List.find?_eq_none]
    intro p hp
    rw [hg p hp]
    exact fun h => nomatch h
  rw [this]
  dsimp only
  unfold addNew
  rw [hd, ho]
  rfl

example : (run calm unowned [.net ⟨1, u 1⟩, .run { mem := some 100 }, .net ⟨2, u 2⟩, .run {}, .run { mem := some 200 }]).bind
      (fun s => .ok (s.peers.map (·.addr), s.rel.map (·.id))) = .ok ([100], [2]) ∧
    (run calm (init (fun _ => .rfotm) (fun _ => false)) [.net ⟨1, u 1⟩, .run { mem := some 100 }]).bind
      (fun s => .ok (s.peers.map (·.addr), s.rel.map (·.id))) = .ok ([], [1]) := by decide

/-! ### Inactivity -/

/-- When the callbacks for inactivity that are due were called, no datagram session is
left that was used but not for twice the timeout. -/
theorem idle_bound (c : Cfg) (h0 : 0 < c.timeout) (dos : Nat → Dos) (oxm : Nat → Bool) (ops : List Op) (s s' : St)
    (h : run c (init dos oxm) ops = .ok s) (now : Nat) (o : Or) (hs : step c s (.tick now o) = .ok s') (p : Peer) (hp : p ∈ s'.peers)
    (ht : p.ep.tcp = false) (hu : p.ts ≠ 0) : now < p.ts + 2 * c.timeout := by
  have b' := step_base h0 (reached c h0 dos oxm ops s h) hs
  obtain ⟨d, h1, -, h3⟩ := b'.idle p hp ht
  rw [step] at hs
  have := inactLoop_due h0 _ hs (by
    intro x hx hd
    exact List.mem_filter.2 ⟨hx, by simpa using hd⟩)
  have hd := this.2 _ h1
  dsimp only at hd
  have : now ≤ max s.clock now := Nat.le_max_right ..
  omega

/-- A session that was used within the timeout is not closed for inactivity, and is not
changed. -/
theorem active_kept (c : Cfg) (h0 : 0 < c.timeout) (hq : Quiet c) (dos : Nat → Dos) (oxm : Nat → Bool) (ops : List Op) (s s' : St)
    (h : run c (init dos oxm) ops = .ok s) (now : Nat) (o : Or) (hs : step c s (.tick now o) = .ok s') (p : Peer) (hp : p ∈ s.peers)
    (ht : max s.clock now - p.ts < c.timeout) : p ∈ s'.peers := by
  have b := reached c h0 dos oxm ops s h
  rw [step] at hs
  dsimp only at hs
  refine inactLoop_kept hq (hand := []) _ ?_ hs p hp ht
  refine ⟨b.nd, b.pw, b.cons, ?_, ?_⟩
  · intro p hp hpt
    obtain ⟨d, h1, h2, h3⟩ := b.idle p hp hpt
    exact ⟨d, h1, Nat.le_trans h2 (Nat.add_le_add_right (Nat.le_max_left ..) _), h3⟩
  · intro p hp
    exact Nat.le_trans (b.ts p hp) (Nat.le_max_left ..)

example : (run calm normal [.net ⟨1, u 1⟩, .run { mem := some 100 }, .tick 5 {}, .run {}, .net ⟨2, u 1⟩, .run {}, .tick 12 {}]).bind
      (fun s => .ok (s.peers.map fun p => (p.addr, p.ts))) = .ok [(100, 5)] ∧
    (run calm normal [.net ⟨1, u 1⟩, .run { mem := some 100 }, .tick 5 {}, .run {}, .net ⟨2, u 1⟩, .run {}, .tick 12 {}, .tick 22 {}]).bind
      (fun s => .ok (s.peers.map fun p => (p.addr, p.ts))) = .ok [] := by decide

/-- A device that is not in normal operation makes no session to send a message: without
a session whose handshake is over the message is given up and nothing else happens. -/
theorem not_normal_unsent (c : Cfg) (o : Or) (s : St) (m : Msg) (l : List Ev) (hs : s.q = .send m :: l)
    (hd : s.dos m.ep.dev ≠ .rfnop) (hp : ∀ p, getPeer s m.ep = some p → p.over = false) :
    step c s (.run o) = .ok { s with q := l, rel := s.rel ++ [m] } := by
  rw [step, hs]
  show sendMsg c o m { s with q := l } = _
  have hi : initConn c o m { s with q := l } = .ok { s with q := l, rel := s.rel ++ [m] } := by
    unfold initConn
    rw [if_pos (by simpa using hd)]
    rfl
  unfold sendMsg
  cases hg : getPeer { s with q := l } m.ep with
  | none => exact hi
  | some p =>
    dsimp only
    rw [hp p hg]
    exact hi

example : (run calm (init (fun _ => .other) (fun _ => false)) [.req ⟨1, u 1⟩, .run { mem := some 100 }]).bind
    (fun s => .ok (s.peers.map (·.addr), s.rel.map (·.id))) = .ok ([], [1]) := by decide

/-- Messages on a TCP connection that the device made never start a session: without a
session in the role of a client the message is given up and nothing else happens. -/
theorem made_connection (c : Cfg) (o : Or) (s : St) (m : Msg) (l : List Ev) (hs : s.q = .recv m :: l)
    (ht : m.ep.tcp = true) (ha : m.ep.acc = false) (hp : ∀ p, getPeer s m.ep = some p → p.client = false) :
    step c s (.run o) = .ok { s with q := l, rel := s.rel ++ [m] } := by
  rw [step, hs]
  show recvMsg c o m { s with q := l } = _
  unfold recvMsg recvPeer
  rw [ht, ha]
  cases hg : getPeer { s with q := l } m.ep with
  | none => rfl
  | some p =>
    have := hp p hg
    show Out.ok _ = _
    simp only [this]
    rfl

example : (run calm normal [.net ⟨1, ⟨0, 1, true, false, 3⟩⟩, .run { mem := some 100 }]).bind
      (fun s => .ok (s.peers.map (·.addr), s.rel.map (·.id))) = .ok ([], [1]) ∧
    (run calm normal [.net ⟨1, ⟨0, 1, true, true, 3⟩⟩, .run { mem := some 100 }]).bind
      (fun s => .ok (s.peers.map (·.addr), s.rel.map (·.id))) = .ok ([100], []) := by decide

/-! ### Messages that wait for the handshake -/

/-- While the handshake goes on, a message is put at the end of the queue and nothing
else happens. -/
theorem queued_last (c : Cfg) (o : Or) (s : St) (m : Msg) (l : List Ev) (p : Peer) (hs : s.q = .send m :: l)
    (hd : s.dos m.ep.dev = .rfnop) (hp : getPeer s m.ep = some p) (hat : at? s p.addr = some p) (hc : p.client = true)
    (ho : p.over = false) (hn : m ∉ p.sendq) (hw : p.sendq ≠ []) :
    step c s (.run o) = .ok (set { s with q := l } p.addr fun p => { p with sendq := p.sendq ++ [m] }) := by
  rw [step, hs]
  show sendMsg c o m { s with q := l } = _
  unfold sendMsg
  have hp' : getPeer { s with q := l } m.ep = some p := hp
  have hat' : at? { s with q := l } p.addr = some p := hat
  rw [hp']
  dsimp only
  rw [ho]
  show initConn c o m _ = _
  unfold initConn
  dsimp only
  rw [hd]
  show (sendPeer c o m.ep _).bind _ = _
  unfold sendPeer
  rw [hp']
  dsimp only
  rw [if_pos hc]
  show queueSend c o p.addr m _ = _
  unfold queueSend
  rw [hat']
  dsimp only
  rw [hc, if_neg (by decide), if_pos (by simpa using hw), if_neg (by simpa using hn)]

/-- When the handshake is over the messages that waited are written, all of them and in
their order, and the other sessions are left alone. -/
theorem flushed (c : Cfg) (o : Or) (s : St) (l : List Ev) (p : Peer) (hs : s.q = .write p.addr :: l) (hat : at? s p.addr = some p)
    (hio : ∀ i, o.io i = .done) :
    ∃ s', step c s (.run o) = .ok s' ∧ s'.out = s.out ++ p.sendq ∧ s'.rel = s.rel ++ p.sendq ∧ s'.q = l ∧
      (∃ q ∈ s'.peers, q.addr = p.addr ∧ q.ep = p.ep ∧ q.sendq = [] ∧ q.recvq = p.recvq ∧ q.over = p.over) ∧
      s'.peers.filter (fun x => x.addr != p.addr) = s.peers.filter (fun x => x.addr != p.addr) := by
  rw [step, hs]
  show ∃ s', writeEv c o p.addr { s with q := l } = .ok s' ∧ _
  unfold writeEv
  have hat' : at? { s with q := l } p.addr = some p := hat
  rw [hat']
  exact writeLoop_flush hio p.sendq 0 { s with q := l } p (at_some hat).1 rfl rfl

/-- The end of a handshake in the handler asks for writing, when no roles are to be
asserted. -/
theorem over_writes (c : Cfg) (hq : Quiet c) (o : Or) (s : St) (l : List Ev) (p : Peer) (hs : s.q = .read p.addr :: l)
    (hat : at? s p.addr = some p) (ho : p.over = false) (hh : o.hs = .over) (hr : o.roles = none) :
    ∃ s', step c s (.run o) = .ok s' ∧ s'.q = l ++ [.write p.addr] ∧ ∀ q ∈ s'.peers, q.addr = p.addr → q.over = true := by
  rw [step, hs]
  show ∃ s', readEv c o p.addr { s with q := l } = .ok s' ∧ _
  unfold readEv
  have hat' : at? { s with q := l } p.addr = some p := hat
  rw [hat']
  dsimp only
  rw [ho]
  show ∃ s', hsStep c o p { s with q := l } = .ok s' ∧ _
  unfold hsStep
  rw [hh]
  dsimp only
  rw [(hq p.ep).2]
  show ∃ s', (perform c o [] _).bind _ = .ok s' ∧ _
  rw [perform_nil]
  show ∃ s', begun o p.addr p.ep _ = .ok s' ∧ _
  unfold begun
  rw [hr]
  refine ⟨_, rfl, ?_, ?_⟩
  · simp only [set, (take_q _ _ _).1]
  · intro q hq' e
    simp only [set] at hq'
    obtain ⟨x, -, rfl⟩ := List.mem_map.1 hq'
    split at e
    · split
      · rfl
      · rename_i h1 h2; exact absurd h1 h2
    · rename_i h1
      exact absurd (by simpa using e) h1

example : ∃ s p, run calm normal [.req ⟨1, u 1⟩, .run { mem := some 100 }, .req ⟨2, u 1⟩] = .ok s ∧ s.q = [.send ⟨2, u 1⟩] ∧
    getPeer s (u 1) = some p ∧ at? s p.addr = some p ∧ p.client = true ∧ p.over = false ∧ p.sendq = [⟨1, u 1⟩] :=
  ⟨_, _, rfl, rfl, rfl, rfl, rfl, rfl, rfl⟩

example : ∃ s p, run calm normal [.req ⟨1, u 1⟩, .run { mem := some 100 }, .req ⟨2, u 1⟩, .run {}, .net ⟨3, u 1⟩, .run {},
      .run { hs := .over, taken := 1 }] = .ok s ∧ s.q = [.write 100] ∧ at? s 100 = some p ∧ p.addr = 100 ∧
      p.sendq = [⟨1, u 1⟩, ⟨2, u 1⟩] :=
  ⟨_, _, rfl, rfl, rfl, rfl, rfl⟩

/-- A handshake that ends while the retry timers are checked (oc_tls.c:743-772): no
event is posted, so that the messages that waited for it are not sent, although the
handler has nothing else to do. -/
theorem retry_stuck_false : ∃ ops s p, run calm normal ops = .ok s ∧ at? s 100 = some p ∧ p.over = true ∧ s.q = [] ∧
    p.sendq = [⟨1, u 1⟩] ∧ s.asserts = [] :=
  ⟨[.req ⟨1, u 1⟩, .run { mem := some 100 }, .timer, .run { retry := fun _ => some .over }], _, _, rfl, rfl, rfl, rfl, rfl, rfl⟩

/-- When the request that asserts roles could not be sent (oc_tls.c:2915-2924) nothing
asks for writing: the messages that waited for the handshake are not sent. -/
theorem roles_stuck_false : ∃ ops s p, run calm normal ops = .ok s ∧ at? s 100 = some p ∧ p.over = true ∧ s.q = [] ∧
    p.sendq = [⟨1, u 1⟩] ∧ s.asserts = [] :=
  ⟨[.req ⟨1, u 1⟩, .run { mem := some 100 }, .net ⟨2, u 1⟩, .run {}, .run { hs := .over, taken := 1, roles := some false }],
    _, _, rfl, rfl, rfl, rfl, rfl, rfl⟩

/-- A message that is sent between the end of the handshake and the writing of the queue
is sent before those that waited (oc_tls.c:2757-2766): the order is not kept. -/
theorem overtake_false : ∃ ops s, run calm normal ops = .ok s ∧ s.inp.map (·.id) = [1, 3, 2] ∧ s.out.map (·.id) = [2, 1] :=
  ⟨[.req ⟨1, u 1⟩, .run { mem := some 100 }, .net ⟨3, u 1⟩, .run {}, .req ⟨2, u 1⟩, .run { hs := .over, taken := 1 }, .run {}, .run {}],
    _, rfl, rfl, rfl⟩

/-- A message that mbedtls did not take because it has to wait (oc_tls.c:2561-2590) is
released without being sent: it is lost. -/
theorem want_lost_false : ∃ ops s m, run calm normal ops = .ok s ∧ m ∈ s.inp ∧ m ∈ s.rel ∧ m ∉ s.out ∧ m.ep = u 1 ∧
    ∃ p, getPeer s (u 1) = some p ∧ p.over = true :=
  ⟨[.req ⟨1, u 1⟩, .run { mem := some 100, hs := .over }, .run {}, .req ⟨2, u 1⟩, .run { io := fun _ => .want }],
    _, ⟨2, u 1⟩, rfl, by decide, by decide, by decide, rfl, _, rfl, rfl⟩

end Verif.TlsPeers
