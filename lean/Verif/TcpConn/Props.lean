import Verif.TcpConn.Tick

/-!
Properties of TCP connections: what happens to messages and callbacks (C133), sockets and
attempts (C134).
-/

namespace Verif.TcpConn

open Spec

/-! ### C133: messages, callbacks, events -/

/-- For every history of calls in a healthy environment: no fault happens; a connection
that is being made, an open one, and one that is neither have the stories of the
specification; a name that was not given has no story. -/
theorem story (M : Nat) (hM : 5 ≤ M) (ops : List Op) (hp : ∀ op ∈ ops, Proper M op) :
    ∃ w, run empty ops = .ok w ∧
      (∀ x ∈ w.waiting ++ w.freeW, Pending (view w.log x.n) x.cb x.msgs) ∧
      (∀ s ∈ w.sess ++ w.free, Running (view w.log s.n) s.ep.secured) ∧
      (∀ n, n < w.next → n ∉ (w.sess ++ w.free).map (·.n) ++ (w.waiting ++ w.freeW).map (·.n) →
        Failed (view w.log n) ∨ Closed (view w.log n) ∨ Never (view w.log n)) ∧
      (∀ n, w.next ≤ n → view w.log n = {}) := by
  obtain ⟨w, h1, h2⟩ := run_ok ops empty (empty_ok hM) hp
  exact ⟨w, h1, fun x hx => (h2.inv.wait x hx).1, fun s hs => (h2.inv.sess s hs).1, h2.inv.gone, h2.inv.fresh⟩

/-- The story of every name is one of the five. -/
theorem stories (M : Nat) (hM : 5 ≤ M) (ops : List Op) (hp : ∀ op ∈ ops, Proper M op) (w : World) (hr : run empty ops = .ok w) (n : Nat) :
    (∃ cb ms, Pending (view w.log n) cb ms) ∨ (∃ b, Running (view w.log n) b) ∨ Failed (view w.log n) ∨ Closed (view w.log n) ∨ Never (view w.log n) := by
  obtain ⟨w', h0, h1, h2, h3, h4⟩ := story M hM ops hp
  rw [hr] at h0; injection h0 with h0; subst h0
  by_cases hn : n < w.next
  · by_cases hm : n ∈ (w.sess ++ w.free).map (·.n) ++ (w.waiting ++ w.freeW).map (·.n)
    · rcases List.mem_append.1 hm with hm | hm
      · obtain ⟨s, hs, rfl⟩ := List.mem_map.1 hm; exact .inr (.inl ⟨_, h2 s hs⟩)
      · obtain ⟨s, hs, rfl⟩ := List.mem_map.1 hm; exact .inl ⟨_, _, h1 s hs⟩
    · exact .inr (.inr (h3 n hn hm))
  · rw [h4 n (by omega)]; exact .inr (.inr (.inr (.inr (by simp [Never]))))

/-- What is written to a connection are the messages that were given to it, in the order
in which they were given, each from its beginning and whole unless the system refused the
rest; or nothing was written. -/
theorem sent_in_order (M : Nat) (hM : 5 ≤ M) (ops : List Op) (hp : ∀ op ∈ ops, Proper M op) (w : World) (hr : run empty ops = .ok w) (n : Nat) :
    (view w.log n).wrote = [] ∨ Streamed (view w.log n).took (view w.log n).wrote := by
  rcases stories M hM ops hp w hr n with ⟨_, _, h⟩ | ⟨_, _, h⟩ | ⟨_, _, h⟩ | ⟨_, h⟩ | h
  · exact .inl h.2.2.2.2.2.1
  · exact .inr h.2.2.2.2.1
  · exact .inl h.2.2.2.2.2.1
  · exact .inr h.2.2.2.2.1
  · exact .inl h.2.2.2.2.2.1

/-- A callback is called at most once, only by the connection it was given to, and the
events of a session are announced at most once. -/
theorem told_once (M : Nat) (hM : 5 ≤ M) (ops : List Op) (hp : ∀ op ∈ ops, Proper M op) (w : World) (hr : run empty ops = .ok w) (n : Nat) :
    (view w.log n).told.length ≤ 1 ∧ (∀ p ∈ (view w.log n).told, (view w.log n).made = [some p.1]) ∧
      (view w.log n).began ≤ 1 ∧ (view w.log n).ended ≤ 1 := by
  have ans : ∀ (v : View) cb t, v.made = [cb] → Answered v cb t → v.told.length ≤ 1 ∧ ∀ p ∈ v.told, v.made = [some p.1] := by
    intro v cb t h1 h2
    rw [show v.told = _ from h2, h1]
    cases cb <;> simp
  rcases stories M hM ops hp w hr n with ⟨_, _, h⟩ | ⟨b, _, h⟩ | ⟨_, _, h⟩ | ⟨_, h⟩ | h
  · simp [h.2.1, h.2.2.1, h.2.2.2.1]
  · obtain ⟨h1, h2⟩ := ans _ _ _ h.1 h.2.1
    exact ⟨h1, h2, by rw [h.2.2.1]; split <;> omega, by rw [h.2.2.2.1]; omega⟩
  · obtain ⟨h1, h2⟩ := ans _ _ _ h.1 h.2.2.1
    exact ⟨h1, h2, by rw [h.2.2.2.1]; omega, by rw [h.2.2.2.2.1]; omega⟩
  · obtain ⟨h1, h2⟩ := ans _ _ _ h.1 h.2.1
    exact ⟨h1, h2, h.2.2.1, h.2.2.2.1⟩
  · simp [h.2.1, h.2.2.1, h.2.2.2.1]

/-- A callback that was given to a connection that is not being made any more was
called. -/
theorem told_at_end (M : Nat) (hM : 5 ≤ M) (ops : List Op) (hp : ∀ op ∈ ops, Proper M op) (w : World) (hr : run empty ops = .ok w) (n f : Nat)
    (hm : (view w.log n).made = [some f]) (hn : n ∉ (w.waiting ++ w.freeW).map (·.n)) : ∃ t, (view w.log n).told = [(f, t)] := by
  have ans : ∀ (v : View) cb t, v.made = [cb] → v.made = [some f] → Answered v cb t → ∃ t, v.told = [(f, t)] := by
    intro v cb t h1 h2 h3
    rw [h2] at h1; injection h1 with h1; subst h1
    exact ⟨t, h3⟩
  obtain ⟨w', h0, h1, h2, h3, h4⟩ := story M hM ops hp
  rw [hr] at h0; injection h0 with h0; subst h0
  by_cases hlt : n < w.next
  · by_cases hs : n ∈ (w.sess ++ w.free).map (·.n)
    · obtain ⟨s, hs', rfl⟩ := List.mem_map.1 hs
      obtain ⟨cb, h⟩ := h2 s hs'
      exact ans _ _ _ h.1 hm h.2.1
    · rcases h3 n hlt (by rw [List.mem_append]; rintro (h | h); exact hs h; exact hn h) with ⟨_, _, h⟩ | ⟨_, h⟩ | h
      · exact ans _ _ _ h.1 hm h.2.2.1
      · exact ans _ _ _ h.1 hm h.2.1
      · rw [h.1] at hm; cases hm
  · rw [h4 n (by omega)] at hm; cases hm

/-- Every reference to a message that was taken is given back, once, when the connection
is made or given up. -/
theorem refs_balanced (M : Nat) (hM : 5 ≤ M) (ops : List Op) (hp : ∀ op ∈ ops, Proper M op) (w : World) (hr : run empty ops = .ok w) (n : Nat) :
    (view w.log n).refs = (view w.log n).unrefs ∨
    ((view w.log n).unrefs = [] ∧ ∃ x ∈ w.waiting ++ w.freeW, x.n = n ∧ x.msgs = (view w.log n).refs) := by
  obtain ⟨w', h0, h1, h2, h3, h4⟩ := story M hM ops hp
  rw [hr] at h0; injection h0 with h0; subst h0
  by_cases hn : n < w.next
  · by_cases hm : n ∈ (w.sess ++ w.free).map (·.n) ++ (w.waiting ++ w.freeW).map (·.n)
    · rcases List.mem_append.1 hm with hm | hm
      · obtain ⟨s, hs, rfl⟩ := List.mem_map.1 hm
        obtain ⟨_, h⟩ := h2 s hs
        exact .inl h.2.2.2.2.2
      · obtain ⟨s, hs, rfl⟩ := List.mem_map.1 hm
        have h := h1 s hs
        exact .inr ⟨h.2.2.2.2.2.2.2, s, hs, rfl, h.2.2.2.2.2.2.1.symm⟩
    · rcases h3 n hn hm with ⟨_, _, h⟩ | ⟨_, h⟩ | h
      · exact .inl h.2.2.2.2.2.2
      · exact .inl h.2.2.2.2.2
      · exact .inl (h.2.2.2.2.2.2.1.trans h.2.2.2.2.2.2.2.symm)
  · rw [h4 n (by omega)]; exact .inl rfl

/-- Sending over an open connection: the connection is the first that matches the address;
the result is the number of bytes that were written, from the beginning of the message;
nothing else changes. If the number is the length of the message, all of it was written. -/
theorem send_open (w : World) (ep : Ep) (m : Bytes) (os : Os) (s : Sess) (hs : w.sess.find? (fun s => same s.ep ep) = some s) :
    ∃ d whole r, send w ep m os = .ok (r, { w with log := w.log ++ [.took s.n m, .wrote s.n d whole] }) ∧ d <+: m ∧
      (r = .bytes d.length ∨ (r = .error ∧ d = [])) ∧ (r = .bytes m.length → d = m) := by
  refine ⟨(sendLoop m (os.sends.headD [])).1, (sendLoop m (os.sends.headD [])).2, (sendOpen w s m os).1, ?_, (sendLoop_spec _ _).1, ?_, ?_⟩
  · unfold send connectLocked findSess
    rw [hs]
    dsimp only [bind_ok]
    unfold sendOpen write World.emit
    dsimp only
    split <;> simp
  · unfold sendOpen; dsimp only
    split
    · rename_i h; exact .inr ⟨rfl, h.2⟩
    · exact .inl rfl
  · unfold sendOpen; dsimp only
    split
    · intro h; cases h
    · intro h
      injection h with h
      exact (sendLoop_spec _ m).1.eq_of_length h

/-- Sending to an address without a connection opens one; as long as it is being made the
message is queued behind the others, in the record of the connection. -/
theorem send_queued (w : World) (ep : Ep) (m : Bytes) (os : Os) (x : Wait) (hs : ∀ s ∈ w.sess, same s.ep ep = false) (ha : ep.accepted = false)
    (hx : w.waiting.find? (fun x => same x.ep ep) = some x) (hq : os.okQ = true) :
    ∃ w', send w ep m os = .ok (.queued, w') ∧
      (w'.waiting = w.waiting.map fun y => if y.n = x.n then { y with msgs := y.msgs ++ [m] } else y) ∧ w'.sess = w.sess ∧ w'.socks = w.socks ∧
      w'.log = w.log ++ [.took x.n m, .ref x.n m] := by
  have h1 : findSess w ep = none := List.find?_eq_none.2 fun s h => by simp [hs s h]
  have h2 : findWait w ep = some x := hx
  unfold send connectLocked
  rw [h1]
  simp only [ha, h2, Bool.false_eq_true, if_false, bind_ok, hq, if_true]
  refine ⟨_, rfl, ?_, rfl, rfl, ?_⟩
  · simp [enqueue, World.emit]
  · simp [enqueue, World.emit]

/-- Sending over an accepted connection that is closed never opens a new one. -/
theorem accepted_closed (w : World) (ep : Ep) (m : Bytes) (os : Os) (hs : ∀ s ∈ w.sess, same s.ep ep = false) (ha : ep.accepted = true) :
    send w ep m os = .ok (.error, w) := by
  have h1 : findSess w ep = none := List.find?_eq_none.2 fun s h => by simp [hs s h]
  unfold send connectLocked
  rw [h1]
  simp [ha, bind_ok]

/-- `oc_send_buffer2` never opens a connection. -/
theorem send2_opens_nothing (w : World) (ep : Ep) (m : Bytes) (q : Bool) (os : Os) :
    (send2 w ep m q os).2.socks = w.socks ∧ (send2 w ep m q os).2.sess = w.sess ∧
    (send2 w ep m q os).2.waiting.map (·.n) = w.waiting.map (·.n) := by
  have hq : ∀ ws : Wait, (enqueue w ws m).waiting.map (·.n) = w.waiting.map (·.n) := by
    intro ws
    simp only [enqueue, World.emit, List.map_map]
    exact List.map_congr_left fun y _ => by simp only [Function.comp]; split <;> rfl
  unfold send2
  split
  · unfold sendOpen write World.emit
    dsimp only
    split <;> exact ⟨rfl, rfl, rfl⟩
  · split
    · exact ⟨rfl, rfl, rfl⟩
    · split
      · split
        · split
          · exact ⟨rfl, rfl, hq _⟩
          · exact ⟨rfl, rfl, rfl⟩
        · exact ⟨rfl, rfl, rfl⟩
      · exact ⟨rfl, rfl, rfl⟩

/-! ### Examples -/

/-- A system with two descriptors, 3 and 4. -/
def two : Pick where
  fd l := if l.contains 3 then (if l.contains 4 then none else some 4) else some 3
  unused l x h := by
    split at h
    · split at h
      · cases h
      · rename_i h4; injection h with h; subst h; simpa using h4
    · rename_i h3; injection h with h; subst h; simpa using h3

theorem two_good : Good two := by
  intro l x h
  simp only [two] at h
  split at h
  · split at h
    · cases h
    · injection h with h; omega
  · injection h with h; omega

/-- A system where all goes well at time `now`. -/
def sys (c : Conn) (sends : List (List (Option Nat))) (now : Nat) : Os := ⟨two, c, true, true, true, sends, true, false, true, now⟩

/-- An address. -/
def peer (a : Nat) : Ep := ⟨0, a, false, false, 0⟩

/-- A connection is asked for, two messages are queued, the connection is made (the second
message is written in two parts), a third is sent, the connection is lost. -/
def life : List Op :=
  [.connect (peer 7) (some 1) (sys .connecting [] 0), .send (peer 7) [1, 2] (sys .connecting [] 1), .send (peer 7) [3, 4] (sys .connecting [] 2),
   .ready [3] (sys .connecting [[some 2], [some 1, some 1]] 3), .send (peer 7) [5] (sys .connecting [[some 1]] 4), .lost false [3]]

theorem life_proper : ∀ op ∈ life, Proper 5 op := by
  intro op h
  simp only [life, List.mem_cons, List.not_mem_nil, or_false] at h
  rcases h with rfl | rfl | rfl | rfl | rfl | rfl
  · exact two_good
  · exact two_good
  · exact two_good
  · trivial
  · exact two_good
  · trivial

/-- What an observer saw after a history. -/
def seen (ops : List Op) (n : Nat) : Option View :=
  match run empty ops with
  | .ok w => some (view w.log n)
  | .ub => none

example : seen life 0 = some { made := [some 1], told := [(1, .connected)], began := 1, ended := 1, tries := 1, took := [[1, 2], [3, 4], [5]], wrote := [([1, 2], true), ([3, 4], true), ([5], true)], refs := [[1, 2], [3, 4]], unrefs := [[1, 2], [3, 4]] } := by decide

/-- A connection is asked for and never made: all attempts are used up. -/
def futile : List Op :=
  [.setRetry 1 10, .connect (peer 7) (some 1) (sys .connecting [] 0), .send (peer 7) [1, 2] (sys .connecting [] 1),
   .tick 10 (fun _ => sys .connecting [] 10), .tick 20 (fun _ => sys .connecting [] 20)]

example : (∀ op ∈ futile, Proper 5 op) ∧
    seen futile 0 = some { made := [some 1], told := [(1, .timeout)], tries := 2, took := [[1, 2]], refs := [[1, 2]], unrefs := [[1, 2]] } := by
  refine ⟨fun op h => ?_, by decide⟩
  simp only [futile, List.mem_cons, List.not_mem_nil, or_false] at h
  rcases h with rfl | rfl | rfl | rfl | rfl
  · show 1 ≤ 5; decide
  · exact two_good
  · exact two_good
  · exact fun n => ⟨two_good, rfl⟩
  · exact fun n => ⟨two_good, rfl⟩

/-- The state after a history, seen through a function. -/
def after {α : Type} (ops : List Op) (f : World → α) : Option α :=
  match run empty ops with
  | .ok w => some (f w)
  | .ub => none

/-- The user's expectation that a stream carries whole messages fails: when the system
takes a part of a message and then refuses, the rest is dropped, the connection stays open
and the next message follows the part: the peer reads the start of the second message as
the rest of the first (port/linux/tcpsession.c:938-965, the result of a part is its length). -/
theorem torn_false : after [.connect (peer 7) none (sys .connected [] 0), .send (peer 7) [1, 2, 3] (sys .connected [[some 1, none]] 1),
      .send (peer 7) [4] (sys .connected [[some 1]] 2)] (fun w => ((view w.log 0).wrote.flatMap (·.1), w.sess.map (·.n))) = some ([1, 4], [0]) := by decide

/-- A connection that is made at once keeps its non-blocking socket, while one that took a
moment is made blocking (port/linux/tcpsession.c:716-724, 1176-1187): whether sending waits
or fails when the buffer of the socket is full depends on how fast the peer answered. -/
theorem nonblocking_false : after [.connect (peer 7) none (sys .connected [] 0)] (fun w => w.sess.map (·.blocking)) = some [false] ∧
    after [.connect (peer 7) none (sys .connecting [] 0), .ready [3] (sys .connecting [] 1)] (fun w => w.sess.map (·.blocking)) = some [true] := by decide

/-! ### C134: sockets and attempts -/

/-- For every history of calls in a healthy environment: the sockets that are open are
those of the records, each of one record; exactly the sockets of open connections are
watched for input and those of the attempts for completion; the session ids are not 0; no
connection is tried more often than the largest number of retries that was configured
allows. -/
theorem sockets (M : Nat) (hM : 5 ≤ M) (ops : List Op) (hp : ∀ op ∈ ops, Proper M op) :
    ∃ w, run empty ops = .ok w ∧ w.socks.Nodup ∧
      ((w.sess ++ w.free).map (·.sock) ++ (w.waiting ++ w.freeW).filterMap (·.sock)).Perm w.socks ∧
      (∀ fd, fd ∈ w.rfds ↔ ∃ s ∈ w.sess ++ w.free, s.sock = fd) ∧
      (∀ fd, fd ∈ w.cfds ↔ ∃ x ∈ w.waiting ++ w.freeW, x.sock = some fd) ∧
      (∀ s ∈ w.sess ++ w.free, s.ep.sid ≠ 0) ∧ (∀ x ∈ w.waiting ++ w.freeW, x.ep.sid ≠ 0) ∧
      (∀ n, (view w.log n).tries ≤ M + 1) := by
  obtain ⟨w, h1, h2⟩ := run_ok ops empty (empty_ok hM) hp
  refine ⟨w, h1, h2.inv.snodup, h2.inv.owned, fun fd => ?_, fun fd => ?_, fun s hs => (h2.inv.sess s hs).2, fun x hx => (h2.inv.wait x hx).2.2.2, h2.inv.tries⟩
  · rw [h2.inv.reads]; exact List.mem_map
  · rw [h2.inv.connects]; exact List.mem_filterMap

example : after life (fun w => (w.socks, w.rfds, w.cfds)) = some ([], [], []) ∧
    after (life.take 4) (fun w => (w.socks, w.rfds, w.cfds)) = some ([3], [3], []) ∧
    after (life.take 3) (fun w => (w.socks, w.rfds, w.cfds)) = some ([3], [], [3]) := by decide

/-- Asking for a connection to an address that has one, or one that is being made, opens
nothing, changes nothing and says so. -/
theorem one_connection (w : World) (ep : Ep) (cb : Option Nat) (os : Os)
    (h : (∃ s ∈ w.sess, same s.ep ep = true) ∨ (ep.accepted = false ∧ ∃ x ∈ w.waiting, same x.ep ep = true)) :
    ∃ r, connect w ep cb os = .ok (r, w) ∧ (∀ k, r ≠ .connected k ∧ r ≠ .connecting k) := by
  unfold connect connectLocked
  cases h1 : findSess w ep with
  | some s =>
    rw [bind_ok]
    refine ⟨_, rfl, fun k => ?_⟩
    unfold resultOf; dsimp only
    split
    · simp
    · simp
  | none =>
    rcases h with ⟨s, hs, he⟩ | ⟨ha, x, hx, he⟩
    · have := List.find?_eq_none.1 h1 s hs; exact absurd he this
    · dsimp only
      rw [if_neg (by simp [ha])]
      cases h2 : findWait w ep with
      | none => have := List.find?_eq_none.1 h2 x hx; exact absurd he this
      | some y =>
        dsimp only
        rw [bind_ok]
        refine ⟨_, rfl, fun k => ?_⟩
        unfold resultOf; dsimp only
        split
        · simp
        · simp

/-- Otherwise there is one call of `connect` for a new name, and what is said is true: an
open connection with the id that is told, or an attempt with that id and the callback, or
nothing. -/
theorem new_connection {M : Nat} (w : World) (hw : Ok M w) (ep : Ep) (cb : Option Nat) (os : Os) (hp : Good os.pick) (hs : ∀ s ∈ w.sess, same s.ep ep = false)
    (hx : ∀ x ∈ w.waiting, same x.ep ep = false) (ha : ep.accepted = false) :
    ∃ r w', connect w ep cb os = .ok (r, w') ∧ (view w'.log w.next).tries = 1 ∧ w'.next = w.next + 1 ∧
      ((os.conn = .connected ∧ ∃ s ∈ w'.sess, s.n = w.next ∧ r = .connected s.ep.sid ∧ s.ep.addr = ep.addr) ∨
       (os.conn = .connecting ∧ ∃ x ∈ w'.waiting, x.n = w.next ∧ r = .connecting x.ep.sid ∧ x.cb = cb ∧ x.start = os.now ∧ x.ep.addr = ep.addr) ∨
       (r = .error ∧ w'.sess = w.sess ∧ w'.waiting = w.waiting ∧ w'.socks = w.socks)) := by
  have h1 : findSess w ep = none := List.find?_eq_none.2 fun s h => by simp [hs s h]
  have h2 : findWait w ep = none := List.find?_eq_none.2 fun s h => by simp [hx s h]
  have hfr : view w.log w.next = {} := hw.inv.fresh _ (Nat.le_refl _)
  unfold connect connectLocked
  rw [h1]
  simp only [ha, h2, Bool.false_eq_true, if_false]
  unfold openNew socket
  dsimp only [World.emit]
  have haddr : ∀ w, (idOf w ep).1.addr = ep.addr := by intro w; unfold idOf; split <;> rfl
  have hv1 : (view (w.log ++ [.tried w.next]) w.next).tries = 1 := by rw [views, hfr]; simp [see]
  cases hc : os.conn with
  | failed => exact ⟨_, _, rfl, hv1, rfl, .inr (.inr ⟨rfl, rfl, rfl, rfl⟩)⟩
  | connected =>
    cases hfd : os.pick.fd w.socks with
    | none => exact ⟨_, _, rfl, hv1, rfl, .inr (.inr ⟨rfl, rfl, rfl, rfl⟩)⟩
    | some fd =>
      dsimp only [Option.map_some, opened]
      have hf := os.pick.unused _ _ hfd
      split
      · obtain ⟨r, hr, hr2⟩ := addSess_ok (({ w with next := w.next + 1, log := w.log ++ [.tried w.next], socks := w.socks ++ [fd] } : World).emit (.made w.next none))
          w.next ep fd false (hp _ _ hfd).2
        dsimp only [World.emit] at hr
        rw [hr, bind_ok, bind_ok]
        have he := idOf_fields { w with next := w.next + 1, log := w.log ++ [.tried w.next] ++ [.made w.next none], socks := w.socks ++ [fd] } ep
        have h1 : (idOf { w with next := w.next + 1, log := w.log ++ [.tried w.next] ++ [.made w.next none], socks := w.socks ++ [fd] } ep).1 =
          (idOf { w with next := w.next + 1, log := w.log ++ [.tried w.next], socks := w.socks ++ [fd] } ep).1 := by
          unfold idOf; split <;> rfl
        rw [he]
        refine ⟨_, _, rfl, ?_, rfl, .inl ⟨rfl, _, List.mem_append_right _ (List.mem_singleton.2 rfl), rfl, ?_, haddr _⟩⟩
        · dsimp only
          rw [List.append_assoc, List.append_assoc, views, hfr, List.foldl_append, List.foldl_append, view_began]
          simp [see]
        · unfold resultOf
          dsimp only
          rw [if_neg (idOf_sid _ _), if_pos rfl, h1]
      · rw [close_ok (by simp), bind_ok]
        dsimp only
        rw [filter_added _ _ hf]
        exact ⟨_, _, rfl, hv1, rfl, .inr (.inr ⟨rfl, rfl, rfl, rfl⟩)⟩
  | connecting =>
    cases hfd : os.pick.fd w.socks with
    | none => exact ⟨_, _, rfl, hv1, rfl, .inr (.inr ⟨rfl, rfl, rfl, rfl⟩)⟩
    | some fd =>
      dsimp only [Option.map_some, opened]
      have hf := os.pick.unused _ _ hfd
      split
      · unfold addWait
        dsimp only
        have he := idOf_fields { w with next := w.next + 1, log := w.log ++ [.tried w.next] ++ [.made w.next cb], socks := w.socks ++ [fd] } ep
        have h1 : (idOf { w with next := w.next + 1, log := w.log ++ [.tried w.next] ++ [.made w.next cb], socks := w.socks ++ [fd] } ep).1 =
          (idOf { w with next := w.next + 1, log := w.log ++ [.tried w.next], socks := w.socks ++ [fd] } ep).1 := by
          unfold idOf; split <;> rfl
        rw [he]
        dsimp only
        obtain ⟨c, hc1, hc2⟩ := watch_ok { w with next := w.next + 1, log := w.log ++ [.tried w.next] ++ [.made w.next cb], socks := w.socks ++ [fd], ids := (idOf { w with next := w.next + 1, log := w.log ++ [.tried w.next] ++ [.made w.next cb], socks := w.socks ++ [fd] } ep).2.ids, waiting := w.waiting ++
              [⟨w.next, (idOf { w with next := w.next + 1, log := w.log ++ [.tried w.next] ++ [.made w.next cb], socks := w.socks ++ [fd] } ep).1, some fd, os.now, 0, false, false, [], cb⟩] } (hp _ _ hfd)
        rw [hc1, bind_ok, bind_ok]
        refine ⟨_, _, rfl, ?_, rfl, .inr (.inl ⟨rfl, _, List.mem_append_right _ (List.mem_singleton.2 rfl), rfl, ?_, rfl, rfl, haddr _⟩)⟩
        · dsimp only
          rw [List.append_assoc, views, hfr]
          simp [see]
        · unfold resultOf
          dsimp only
          rw [if_neg (idOf_sid _ _), if_pos rfl, h1]
      · rw [close_ok (by simp), bind_ok]
        dsimp only
        rw [filter_added _ _ hf]
        exact ⟨_, _, rfl, hv1, rfl, .inr (.inr ⟨rfl, rfl, rfl, rfl⟩)⟩

example : Ok 5 empty ∧ after [.connect (peer 7) (some 1) (sys .connecting [] 9)] (fun w => w.waiting.map fun x => (x.n, x.ep.sid, x.cb, x.start)) =
    some [(0, 1, some 1, 9)] := ⟨empty_ok (Nat.le_refl _), by decide⟩

/-- The time since an attempt began, when the clock did not go back. -/
theorem elapsed (now start : Nat) (h1 : start ≤ now) (h2 : now < 18446744073709551616) : sub64 now start = now - start := by
  unfold sub64; omega

/-- After a check of the timeouts at `now`, in a state that a history has reached, no
attempt is left that failed or is over; when attempts are left, the time until the next
check is neither 0 nor longer than the timeout. -/
theorem tick_fresh (M : Nat) (hM : 5 ≤ M) (ops : List Op) (hp : ∀ op ∈ ops, Proper M op) (w : World) (hr : run empty ops = .ok w)
    (now : Nat) (hnow : now < 18446744073709551616) (os : Nat → Os) (ho : Proper M (.tick now os)) (ht : 0 < w.timeout) :
    ∃ e w', tick now os w = .ok (e, w') ∧ e ≤ w.timeout ∧
      ∀ x ∈ w'.waiting, 0 < e ∧ x.error = false ∧ x.force = false ∧ (x.start ≤ now → now - x.start < w.timeout) := by
  obtain ⟨w0, h0, hok⟩ := run_ok ops empty (empty_ok hM) hp
  rw [hr] at h0; injection h0 with h0; subst h0
  obtain ⟨e, w', h1, _, _, h4, h5⟩ := tick_ok hok now os ho
  refine ⟨e, w', h1, h4, fun x hx => ?_⟩
  obtain ⟨⟨k1, k2, k3⟩, k4⟩ := h5 ht x hx
  exact ⟨k4, k1, k2, fun hle => by rw [elapsed _ _ hle hnow] at k3; exact k3⟩

/-- An attempt that is not over is left alone by a check; one that is over and has tries
left is made again when the system allows, with a new socket and a new start. -/
theorem tick_attempts (M : Nat) (hM : 5 ≤ M) (ops : List Op) (hp : ∀ op ∈ ops, Proper M op) (w : World) (hr : run empty ops = .ok w)
    (now : Nat) (hnow : now < 18446744073709551616) (os : Nat → Os) (ho : Proper M (.tick now os)) (x : Wait) (hx : x ∈ w.waiting) (hst : x.start ≤ now)
    (he : x.error = false) :
    ∃ e w', tick now os w = .ok (e, w') ∧
      (x.force = false → now < x.start + w.timeout → x ∈ w'.waiting) ∧
      ((x.force = true ∨ x.start + w.timeout ≤ now) → x.count < w.maxCount → (os x.n).conn = .connecting → (∀ l, ((os x.n).pick.fd l).isSome) →
        ∃ fd, { x with count := x.count + 1, start := now, force := false, sock := some fd } ∈ w'.waiting) := by
  obtain ⟨w0, h0, hok⟩ := run_ok ops empty (empty_ok hM) hp
  rw [hr] at h0; injection h0 with h0; subst h0
  obtain ⟨e, w', h1, _⟩ := tick_ok hok now os ho
  have n2 := hok.nodupW
  rw [List.map_append, List.nodup_append] at n2
  obtain ⟨k1, k2⟩ := tickLoop_keeps now os ho w.waiting w 0 e w' hok n2.1 (fun _ h => h) h1
  have hel := elapsed _ _ hst hnow
  refine ⟨e, w', h1, fun hf hlt => k1 x hx (.inr ⟨he, hf, by rw [hel]; omega⟩), fun hor hc hcn hpk => k2 x hx he ?_ hc hcn hpk⟩
  rcases hor with h | h
  · exact .inl h
  · exact .inr (by rw [hel]; omega)

/-- The two cases occur: at 14 an attempt of 5 with timeout 10 is left alone and one of 0 is made again. -/
example : after [.setRetry 1 10, .connect (peer 7) none (sys .connecting [] 0), .connect (peer 8) none (sys .connecting [] 5),
      .tick 14 (fun _ => sys .connecting [] 14)] (fun w => w.waiting.map fun x => (x.ep.addr, x.start, x.count)) = some [(7, 14, 1), (8, 5, 0)] := by decide

/-- The last attempt that is over is told as a timeout, one that failed as an error (the
only attempt there is). -/
theorem tick_told {M : Nat} (w : World) (hw : Ok M w) (now : Nat) (hnow : now < 18446744073709551616) (os : Nat → Os) (x : Wait) (hx : w.waiting = [x])
    (hst : x.start ≤ now) :
    (x.error = true → ∃ w', tick now os w = .ok (0, w') ∧ (view w'.log x.n).told = x.cb.toList.map fun f => (f, Told.error)) ∧
    (x.error = false → (x.force = true ∨ x.start + w.timeout ≤ now) → w.maxCount ≤ x.count →
      ∃ w', tick now os w = .ok (0, w') ∧ (view w'.log x.n).told = x.cb.toList.map fun f => (f, Told.timeout)) := by
  have hm : x ∈ w.waiting ++ w.freeW := by simp [hx]
  have h0 : (view w.log x.n).told = [] := (hw.inv.wait x hm).1.2.1
  have hel := elapsed _ _ hst hnow
  unfold tick
  rw [hx, tickLoop]
  refine ⟨fun he => ?_, fun he hor hc => ?_⟩
  · have : check x now w.timeout w.maxCount = .error := by unfold check; rw [if_pos he]
    rw [this]
    obtain ⟨w', h1, _⟩ := freeWait_ok hw hm .error (by decide)
    have h2 := freeWait_told h1
    dsimp only
    rw [h1, bind_ok]
    refine ⟨w', rfl, ?_⟩
    rw [h2, h0]; rfl
  · have : check x now w.timeout w.maxCount = .expired := check_expired he (hor.imp id fun h => by rw [hel]; omega) hc
    rw [this]
    obtain ⟨w', h1, _⟩ := freeWait_ok hw hm .timeout (by decide)
    have h2 := freeWait_told h1
    dsimp only
    rw [h1, bind_ok]
    refine ⟨w', rfl, ?_⟩
    rw [h2, h0]; rfl

/-- A connection is ended in two parts: the record leaves the lists at once, so that nothing is sent
over it any more; the network thread then closes it. -/
theorem ended_not_found (M : Nat) (hM : 5 ≤ M) (ops : List Op) (hp : ∀ op ∈ ops, Proper M op) (w : World) (hr : run empty ops = .ok w) (ep : Ep) (b q : Bool)
    (s : Sess) (hs : w.sess.find? (fun s => same s.ep ep) = some s) :
    (endSess w ep b).1 = true ∧ (∀ y ∈ (endSess w ep b).2.sess, y.n ≠ s.n) ∧
    ∃ w', signal q (endSess w ep b).2 = .ok w' ∧ w'.free = [] ∧ s.sock ∉ w'.socks := by
  obtain ⟨w0, h0, hok⟩ := run_ok ops empty (empty_ok hM) hp
  rw [hr] at h0; injection h0 with h0; subst h0
  have hf : findSess w ep = some s := hs
  have hmem := findSess_mem hf
  have hE := endSess_ok hok ep b
  have he : endSess w ep b = (true, { w with sess := w.sess.filter fun x => x.n != s.n, free := w.free ++ [({ s with notify := b } : Sess)] }) := by
    unfold endSess; rw [hf]
  rw [he] at hE ⊢
  dsimp only at hE ⊢
  refine ⟨rfl, fun y hy => by simpa using (List.mem_filter.1 hy).2, ?_⟩
  unfold signal
  have n1 := hE.nodupS
  have n2 := hE.nodupW
  rw [List.map_append, List.nodup_append] at n1 n2
  obtain ⟨w', g1, g2, g3, g4, g5, g6⟩ := signal_ok hE q
  unfold signal at g1
  refine ⟨w', g1, g3, ?_⟩
  · intro hsock
    rw [← g2.inv.owned.mem_iff, g3, g4, List.append_nil, List.append_nil] at hsock
    have ho := hok.inv.owned
    have hnd := ho.nodup_iff.2 hok.inv.snodup
    rw [List.nodup_append] at hnd
    rcases List.mem_append.1 hsock with h | h
    · obtain ⟨y, hy, hys⟩ := List.mem_map.1 h
      have hy' := List.mem_filter.1 ((g5 y).1 hy)
      have hyn : y.n ≠ s.n := by simpa using hy'.2
      -- two sessions with one socket
      have hp := filter_names (fun z : Sess => z.n) _ s hok.nodupS (List.mem_append_left _ hmem)
      have hp2 := (hp.map (fun z : Sess => z.sock)).nodup_iff.1 hnd.1
      rw [List.map_cons, List.nodup_cons] at hp2
      refine hp2.1 (List.mem_map.2 ⟨y, List.mem_filter.2 ⟨by simp [hy'.1], by simpa using hyn⟩, hys⟩)
    · obtain ⟨y, hy, hys⟩ := List.mem_filterMap.1 h
      exact hnd.2.2 s.sock (List.mem_map_of_mem (by simp [hmem])) s.sock
        (List.mem_filterMap.2 ⟨y, by simp [(g6 y).1 hy], hys⟩) rfl

/-- The end of a session is announced when it is closed, if that was asked for and the
program is not disconnecting all sessions itself; its socket is closed. -/
theorem close_told {M : Nat} (w : World) (hw : Ok M w) (q : Bool) (s : Sess) (hs : s ∈ w.sess ++ w.free) :
    ∃ w', freeSess q w s = .ok w' ∧ (view w'.log s.n).ended = (if q = false ∧ s.notify = true then 1 else 0) ∧
      (w'.socks = w.socks.filter fun x => x != s.sock) := by
  obtain ⟨⟨cb, h1, h2, h3, h4, h5, h6⟩, _⟩ := hw.inv.sess s hs
  have hm : s.sock ∈ w.socks := hw.inv.owned.mem_iff.1 (List.mem_append_left _ (List.mem_map_of_mem hs))
  unfold freeSess
  dsimp only
  by_cases e : (!q && s.notify) = true
  · rw [if_pos e, close_ok (by exact hm)]
    refine ⟨_, rfl, ?_, rfl⟩
    have : q = false ∧ s.notify = true := by simpa using e
    rw [if_pos this]
    dsimp only [World.emit]
    rw [view_append]
    simp [see, h4]
  · rw [if_neg e, close_ok (by exact hm)]
    refine ⟨_, rfl, ?_, rfl⟩
    have : ¬ (q = false ∧ s.notify = true) := by simpa using e
    rw [if_neg this]
    exact h4

example : Ok 5 empty := empty_ok (Nat.le_refl _)

/-- Shutting a device down closes all its connections and attempts, and those that were
ended before; when it was the only device no socket is left. -/
theorem shutdown_closes (M : Nat) (hM : 5 ≤ M) (ops : List Op) (hp : ∀ op ∈ ops, Proper M op) (w : World) (hr : run empty ops = .ok w) (q : Bool) (dev : Nat) :
    ∃ w', shutdown q w dev = .ok w' ∧ w'.free = [] ∧ w'.freeW = [] ∧ (∀ s, s ∈ w'.sess ↔ s ∈ w.sess ∧ s.ep.dev ≠ dev) ∧
      (∀ x, x ∈ w'.waiting ↔ x ∈ w.waiting ∧ x.ep.dev ≠ dev) ∧
      ((∀ s ∈ w.sess, s.ep.dev = dev) → (∀ x ∈ w.waiting, x.ep.dev = dev) → w'.socks = [] ∧ w'.rfds = [] ∧ w'.cfds = []) := by
  obtain ⟨w0, h0, hok⟩ := run_ok ops empty (empty_ok hM) hp
  rw [hr] at h0; injection h0 with h0; subst h0
  obtain ⟨w', h1, h2, h3, h4, h5, h6⟩ := shutdown_ok hok q dev
  refine ⟨w', h1, h3, h4, h5, h6, fun a b => ?_⟩
  have e1 : w'.sess = [] := List.eq_nil_iff_forall_not_mem.2 fun s hs => ((h5 s).1 hs).2 (a s ((h5 s).1 hs).1)
  have e2 : w'.waiting = [] := List.eq_nil_iff_forall_not_mem.2 fun s hs => ((h6 s).1 hs).2 (b s ((h6 s).1 hs).1)
  have ho := h2.inv.owned
  have hrd := h2.inv.reads
  have hcn := h2.inv.connects
  rw [e1, e2, h3, h4] at ho
  rw [e1, h3] at hrd
  rw [e2, h4] at hcn
  refine ⟨List.Perm.nil_eq (by simpa using ho) |>.symm, List.eq_nil_iff_forall_not_mem.2 fun x hx => ?_, List.eq_nil_iff_forall_not_mem.2 fun x hx => ?_⟩
  · have := (hrd x).1 hx; simp at this
  · have := (hcn x).1 hx; simp at this

example : after (life.take 5 ++ [.connect (peer 8) none (sys .connecting [] 9), .shutdown true 0]) (fun w => (w.socks, w.rfds, w.cfds)) =
    some ([], [], []) := by decide

/-- The session id of a new connection is never 0, also after the counter wrapped. -/
theorem new_id (ids : Nat) : newId ids ≠ 0 ∧ newId ids < 4294967296 := by
  unfold newId; dsimp only; split <;> omega

/-! ### Where the expectation fails -/

/-- A try of a connection that succeeds at once while there is no memory for a session:
the attempt is given up, its new socket is never closed (port/linux/tcpsession.c:1258-1265:
`cs.fd` is dropped; the caller frees the attempt whose socket is -1). -/
theorem leak_false : after [.connect (peer 7) none (sys .connecting [] 0), .tick 5000000 (fun _ => { sys .connected [] 5000000 with okS := false })]
    (fun w => (w.socks, w.sess, w.waiting, w.free, w.freeW)) = some ([3], [], [], [], []) := by decide

/-- A system that gives descriptor `k`. -/
def only (k : Nat) : Pick where
  fd l := if l.contains k then none else some k
  unused l x h := by
    split at h
    · cases h
    · rename_i h3; injection h with h; subst h; simpa using h3

/-- Descriptor 0 is a valid one (a program may have closed its standard input): the attempt
is recorded but never watched, so that its success is not noticed
(port/linux/tcpsession.c:658, `sock > 0`). -/
theorem fd_zero_false : after [.connect (peer 7) none { sys .connecting [] 0 with pick := only 0 }] (fun w => (w.waiting.map (·.sock), w.cfds)) =
    some ([some 0], []) := by decide

/-- A descriptor that is not below `FD_SETSIZE` (a program may have more files open): the
bit is set outside the set. -/
theorem fdset_ub : run empty [.connect (peer 7) none { sys .connecting [] 0 with pick := only 1024 }] = .ub ∧
    run empty [.connect (peer 7) none { sys .connected [] 0 with pick := only 1024 }] = .ub := by
  constructor <;> rfl

/-- A connection from an IPv6 address whose scope is 255 or more: the assertion on the
scope fails and the program ends (port/linux/tcpsession.c:281-322). -/
theorem scope_ub : run empty [.accept (peer 7) 255 two true] = .ub := by rfl

/-- The time until the next check. -/
def nextCheck (ops : List Op) (now : Nat) (c : Conn) : Option Nat :=
  match run empty ops with
  | .ok w => match tick now (fun _ => sys c [] now) w with
    | .ok x => some x.1
    | .ub => none
  | .ub => none

/-- The next check may come after the end of an attempt: when an attempt is made again its
timeout replaces the earlier end of another one (port/linux/tcpsession.c:1303). With a
timeout of 10, at time 15 one attempt ends at 20, and the next check is at 25. -/
theorem late_false : nextCheck [.setRetry 5 10, .connect (peer 7) none (sys .connecting [] 0), .connect (peer 8) none (sys .connecting [] 5),
      .tick 10 (fun _ => sys .connecting [] 10)] 15 .connecting = some 10 ∧
    after [.setRetry 5 10, .connect (peer 7) none (sys .connecting [] 0), .connect (peer 8) none (sys .connecting [] 5),
      .tick 10 (fun _ => sys .connecting [] 10), .tick 15 (fun _ => sys .connecting [] 15)] (fun w => w.waiting.map (·.start)) = some [10, 15] := by decide

/-- With a timeout of 0 there is no next check although an attempt is being made: 0 also
means that no check is needed (port/linux/ipadapter.c:1081). -/
theorem zero_timeout_false : nextCheck [.setRetry 5 0, .connect (peer 7) none (sys .connecting [] 0)] 1 .connecting = some 0 ∧
    after [.setRetry 5 0, .connect (peer 7) none (sys .connecting [] 0), .tick 1 (fun _ => sys .connecting [] 1)] (fun w => w.waiting.map (·.n)) = some [0] := by decide

/-- The network thread reads the clock before it takes the lock: an attempt that another
thread begins in between is younger than the check, the unsigned difference is huge, and
the attempt is told as a timeout at once (port/linux/ipadapter.c:1115,
port/linux/tcpsession.c:1225-1229). -/
theorem race_false : seen [.setRetry 0 5000000, .connect (peer 7) (some 1) (sys .connecting [] 100), .tick 99 (fun _ => sys .connecting [] 100)] 0 =
    some { made := [some 1], told := [(1, .timeout)], tries := 1 } := by decide

/-! ### Which session, and what becomes of an attempt -/

theorem sendAll_sess (n : Nat) : ∀ (ms : List Bytes) (os : List (List (Option Nat))) (w : World), (sendAll w n ms os).sess = w.sess
  | [], _, _ => rfl
  | m :: r, os, w => by rw [sendAll, sendAll_sess n r]; rfl

theorem sendAll_waiting (n : Nat) : ∀ (ms : List Bytes) (os : List (List (Option Nat))) (w : World), (sendAll w n ms os).waiting = w.waiting
  | [], _, _ => rfl
  | m :: r, os, w => by rw [sendAll, sendAll_waiting n r]; rfl

theorem unrefs_timeout (n : Nat) : ∀ (ms : List Bytes) (w : World), (unrefs w n ms).timeout = w.timeout
  | [], _ => rfl
  | m :: r, w => by rw [unrefs, unrefs_timeout n r]; rfl

theorem freeWait_timeout {w w' : World} {x : Wait} {t : Told} (h : freeWait w x t = .ok w') : w'.timeout = w.timeout := by
  unfold freeWait at h
  dsimp only at h
  have ht : ∀ (v : World), (tell v x.n x.cb t).timeout = v.timeout := by intro v; unfold tell; split <;> rfl
  cases hs : x.sock with
  | none =>
    rw [hs, dropSock, bind_ok] at h
    injection h with h
    rw [← h, ht, unrefs_timeout]
  | some fd =>
    rw [hs, dropSock, close] at h
    split at h
    · rw [bind_ok] at h
      injection h with h
      rw [← h, ht]
      exact unrefs_timeout _ _ _
    · cases h


/-- A message for an accepted connection with a session id goes to the open session with
that id, of the same peer, device and protection; when there is none it is not sent and
nothing changes. -/
theorem own_session (M : Nat) (hM : 5 ≤ M) (ops : List Op) (hp : ∀ op ∈ ops, Proper M op) (w : World) (hr : run empty ops = .ok w)
    (ep : Ep) (hi : ep.sid ≠ 0) (ha : ep.accepted = true) (m : Bytes) (os : Os) :
    (∃ s ∈ w.sess, s.ep.sid = ep.sid ∧ s.ep.addr = ep.addr ∧ s.ep.dev = ep.dev ∧ s.ep.secured = ep.secured ∧
      send w ep m os = .ok (sendOpen w s m os)) ∨
    ((∀ s ∈ w.sess, ¬(s.ep.sid = ep.sid ∧ s.ep.addr = ep.addr ∧ s.ep.dev = ep.dev ∧ s.ep.secured = ep.secured)) ∧
      send w ep m os = .ok (.error, w)) := by
  obtain ⟨w0, h0, hok⟩ := run_ok ops empty (empty_ok hM) hp
  rw [hr] at h0; injection h0 with h0; subst h0
  cases hf : findSess w ep with
  | some s =>
    have hm : s ∈ w.sess := List.mem_of_find?_eq_some hf
    have hs : same s.ep ep = true := List.find?_some (p := fun s : Sess => same s.ep ep) hf
    have hn := (hok.inv.sess s (by simp [hm])).2
    simp only [same, Bool.and_eq_true, Bool.or_eq_true, beq_iff_eq] at hs
    refine .inl ⟨s, hm, ?_, hs.1.1.2, hs.1.1.1, hs.1.2, ?_⟩
    · rcases hs.2 with (h | h) | h
      · exact absurd h hn
      · exact absurd h hi
      · exact h
    · unfold send connectLocked
      rw [hf, bind_ok]
  | none =>
    have hx := List.find?_eq_none.1 hf
    refine .inr ⟨fun s hs hc => hx s hs ?_, accepted_closed w ep m os (fun s hs => by simpa using hx s hs) ha⟩
    simp [same, hc.1, hc.2.1, hc.2.2.1, hc.2.2.2]

/-- Two accepted connections of one peer have different ids, and each is served by its own. -/
example : after [.accept (peer 7) 0 two true, .accept (peer 7) 0 two true] (fun w => w.sess.map fun s => (s.n, s.ep.sid)) = some [(0, 1), (1, 2)] := by decide

/-- When the socket of an attempt is ready, the attempt that waits on it becomes a session
only if the socket has no pending error; with a pending error it is marked as failed, and
when the system refuses otherwise it is marked to be made again; in both cases nobody is
told yet and the socket is closed. -/
theorem ready_decides (M : Nat) (hM : 5 ≤ M) (ops : List Op) (hp : ∀ op ∈ ops, Proper M op) (w : World) (hr : run empty ops = .ok w)
    (fds : List Nat) (os : Os) (x : Wait) (fd : Nat) (hx : w.waiting.find? (fun x => x.sock.any fds.contains) = some x) (hfd : x.sock = some fd) :
    ∃ w', ready w fds os = .ok w' ∧
      ((os.opt = true ∧ os.soError = false ∧ os.fcntl = true ∧ os.okS = true) →
        (∃ s ∈ w'.sess, s.n = x.n ∧ s.sock = fd) ∧ ∀ y ∈ w'.waiting, y.n ≠ x.n) ∧
      ((os.opt = true ∧ os.soError = true) →
        { x with sock := none, error := true } ∈ w'.waiting ∧ w'.sess = w.sess ∧ w'.log = w.log ∧ fd ∉ w'.socks) ∧
      ((os.opt = false ∨ (os.soError = false ∧ (os.fcntl = false ∨ os.okS = false))) →
        { x with sock := none, force := true, error := false } ∈ w'.waiting ∧ w'.sess = w.sess ∧ w'.log = w.log ∧ fd ∉ w'.socks) := by
  obtain ⟨w0, h0, hok⟩ := run_ok ops empty (empty_ok hM) hp
  rw [hr] at h0; injection h0 with h0; subst h0
  have hm : x ∈ w.waiting := List.mem_of_find?_eq_some hx
  have hx' : x ∈ w.waiting ++ w.freeW := by simp [hm]
  obtain ⟨w1, h1, h2⟩ := ready_ok hok fds os
  refine ⟨w1, h1, ?_⟩
  have hpw : processWait w x fd os = .ok w1 := by
    unfold ready at h1
    rw [hx] at h1
    dsimp only at h1
    rw [hfd] at h1
    exact h1
  have hs := (hok.split_wait hx').drop_sock hfd
  unfold processWait at hpw
  have mem : ∀ (w : World) (y : Wait), x ∈ w.waiting → y.n = x.n → y ∈ (setWait w y).waiting := by
    intro w y h hy
    unfold setWait
    exact List.mem_map.2 ⟨x, h, by simp [hy]⟩
  rw [dropSock, close_ok (by exact hs.1)] at hpw
  refine ⟨fun ⟨a, b, c, d⟩ => ?_, fun ⟨a, b⟩ => ?_, fun h => ?_⟩
  · rw [if_pos (by simp [a, b, c, d])] at hpw
    unfold promote at hpw
    have hlow := hok.low fd (by exact hs.1)
    have hadd : addSess w x.n x.ep fd true = .ok { (if x.ep.secured then { (idOf w x.ep).2 with sess := (idOf w x.ep).2.sess ++ [(⟨x.n, (idOf w x.ep).1, fd, true, true⟩ : Sess)] }
        else ({ (idOf w x.ep).2 with sess := (idOf w x.ep).2.sess ++ [(⟨x.n, (idOf w x.ep).1, fd, true, true⟩ : Sess)] } : World).emit (.began x.n)) with
          rfds := if w.rfds.contains fd then w.rfds else w.rfds ++ [fd] } := by
      unfold addSess fdSet fdSetSize
      dsimp only
      have hrf : (if x.ep.secured then ({ (idOf w x.ep).2 with sess := (idOf w x.ep).2.sess ++ [(⟨x.n, (idOf w x.ep).1, fd, true, true⟩ : Sess)] } : World)
        else ({ (idOf w x.ep).2 with sess := (idOf w x.ep).2.sess ++ [(⟨x.n, (idOf w x.ep).1, fd, true, true⟩ : Sess)] } : World).emit (.began x.n)).rfds = w.rfds := by
        unfold idOf; split <;> split <;> rfl
      rw [hrf, if_pos hlow.2, bind_ok]
    rw [hadd, bind_ok] at hpw
    injection hpw with hpw
    subst hpw
    constructor
    · refine ⟨⟨x.n, (idOf w x.ep).1, fd, true, true⟩, ?_, rfl, rfl⟩
      rw [sendAll_sess]
      unfold tell
      split <;> (unfold World.emit; dsimp only; split <;> simp)
    · intro y hy
      rw [sendAll_waiting] at hy
      simpa using (List.mem_filter.1 hy).2
  · rw [if_neg (by simp [b]), bind_ok, if_pos (by simp [a, b])] at hpw
    injection hpw with hpw
    subst hpw
    exact ⟨mem _ _ hm rfl, rfl, rfl, by simp [setWait]⟩
  · rw [if_neg (by rcases h with h | ⟨_, h | h⟩ <;> simp [h]), bind_ok, if_neg (by rcases h with h | ⟨h, _⟩ <;> simp [h])] at hpw
    injection hpw with hpw
    subst hpw
    exact ⟨mem _ _ hm rfl, rfl, rfl, by simp [setWait]⟩

/-- An attempt that waits on a ready socket. -/
example : after [.connect (peer 7) (some 1) (sys .connecting [] 0)] (fun w => w.waiting.find? (fun x => x.sock.any [3].contains) |>.map (·.sock)) = some (some (some 3)) := by decide

/-- When no attempt has to be made again at a check, the next check comes no later than
the end of any attempt that is left. -/
theorem in_time (M : Nat) (hM : 5 ≤ M) (ops : List Op) (hp : ∀ op ∈ ops, Proper M op) (w : World) (hr : run empty ops = .ok w)
    (now : Nat) (hnow : now < 18446744073709551616) (os : Nat → Os) (ho : Proper M (.tick now os))
    (hy : ∀ x ∈ w.waiting, x.error = false → x.force = false ∧ x.start ≤ now ∧ now < x.start + w.timeout) :
    ∃ e w', tick now os w = .ok (e, w') ∧ ∀ x ∈ w.waiting, x.error = false → 0 < e ∧ now + e ≤ x.start + w.timeout := by
  obtain ⟨w0, h0, hok⟩ := run_ok ops empty (empty_ok hM) hp
  rw [hr] at h0; injection h0 with h0; subst h0
  obtain ⟨e, w', h1, _⟩ := tick_ok hok now os ho
  refine ⟨e, w', h1, ?_⟩
  have key : ∀ (l : List Wait) (v : World) (e0 e : Nat) (w' : World), v.timeout = w.timeout →
      (∀ x ∈ l, x.error = false → x.force = false ∧ x.start ≤ now ∧ now < x.start + w.timeout) →
      tickLoop now os v l e0 = .ok (e, w') → (0 < e0 → 0 < e ∧ e ≤ e0) ∧ ∀ x ∈ l, x.error = false → 0 < e ∧ now + e ≤ x.start + w.timeout := by
    intro l
    induction l with
    | nil =>
      intro v e0 e w' _ _ h
      rw [tickLoop] at h
      injection h with h; injection h with h _
      subst h
      exact ⟨fun h => ⟨h, Nat.le_refl _⟩, fun x hx => absurd hx (by simp)⟩
    | cons a r ih =>
      intro v e0 e w' hv hl h
      rw [tickLoop] at h
      have hl' : ∀ x ∈ r, x.error = false → x.force = false ∧ x.start ≤ now ∧ now < x.start + w.timeout := fun x hx => hl x (by simp [hx])
      cases he : a.error with
      | true =>
        have hc : check a now v.timeout v.maxCount = .error := by unfold check; rw [if_pos he]
        rw [hc] at h
        dsimp only at h
        cases hfw : freeWait v a .error with
        | ub => rw [hfw] at h; cases h
        | ok v1 =>
          rw [hfw, bind_ok] at h
          have := ih v1 e0 e w' ((freeWait_timeout hfw).trans hv) hl' h
          refine ⟨this.1, fun x hx hxe => ?_⟩
          rcases List.mem_cons.1 hx with rfl | hx
          · rw [he] at hxe; cases hxe
          · exact this.2 x hx hxe
      | false =>
        obtain ⟨k1, k2, k3⟩ := hl a (by simp) he
        have hel := elapsed now a.start k2 hnow
        have hc : check a now v.timeout v.maxCount = .valid (w.timeout - (now - a.start)) := by
          unfold check
          rw [if_neg (by simp [he])]
          dsimp only
          rw [hel, hv, if_pos (by simp [k1]; omega)]
        rw [hc] at h
        dsimp only at h
        have := ih v _ e w' hv hl' h
        have hs : 0 < smaller e0 (w.timeout - (now - a.start)) ∧ smaller e0 (w.timeout - (now - a.start)) ≤ w.timeout - (now - a.start) ∧
            (0 < e0 → smaller e0 (w.timeout - (now - a.start)) ≤ e0) := by
          unfold smaller; split <;> omega
        obtain ⟨p1, p2⟩ := this.1 hs.1
        refine ⟨fun h0 => ⟨p1, Nat.le_trans p2 (hs.2.2 h0)⟩, fun x hx hxe => ?_⟩
        rcases List.mem_cons.1 hx with rfl | hx
        · exact ⟨p1, by omega⟩
        · exact this.2 x hx hxe
  exact (key w.waiting w 0 e w' rfl hy h1).2

/-- Two attempts, begun at 0 and at 5, with a timeout of 10: at 6 the next check is due in 4. -/
example : nextCheck [.setRetry 5 10, .connect (peer 7) none (sys .connecting [] 0), .connect (peer 8) none (sys .connecting [] 5)] 6 .connecting = some 4 := by decide

end Verif.TcpConn
