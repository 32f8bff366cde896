import Verif.Common

/-!
Model of the queue of received messages: the network thread of each device
(port/linux/ipadapter.c), the queue between the threads (api/oc_network_events.c) and
its emptying by the main loop, as atomic steps that are interleaved in any order.

Simplifications: what is done under the lock of the queue is one step; a message is a
number with the device it came to and its peer (two endpoints are equal if device and
peer are); the two flags of a poll request (util/oc_process.c) are one flag here, see
the area Session for both; connections (TCP) and the end of the program are left out;
a message handed to the message buffer handler counts as delivered.
-/

namespace Verif.NetQueue

/-- A received message, `oc_message_t`. -/
structure Msg where
  id : Nat
  dev : Nat
  peer : Nat
deriving DecidableEq, Repr

/-- Where a network thread is, port/linux/ipadapter.c:1073-1117: before looking at the
length of the queue (1096); waiting in `select` for control events only (1099-1103);
waiting for everything; processing, with that many more reads allowed (1003-1020). -/
inductive TPc where
  | check
  | full
  | all
  | work (k : Nat)
deriving DecidableEq, Repr

/-- A network thread; `pipe`: bytes in its wake-up pipe; `post`: it has added a
message and not yet asked for the poll (api/oc_network_events.c:168-171). -/
structure Th where
  pc : TPc
  pipe : Nat
  post : Bool
deriving DecidableEq, Repr

/-- Where the main loop is in `oc_process_network_event`,
api/oc_network_events.c:79-128: elsewhere; called (82); holding the messages taken
from the queue (97); with these devices still to be woken (101); handing the messages
on (113-117). -/
inductive MPc where
  | idle
  | polled
  | took (batch : List Msg)
  | wake (batch : List Msg) (devs : List Nat)
  | hand (batch : List Msg)
deriving DecidableEq, Repr

/-- Everything. `sig`: calls of `oc_network_drop_receive_events` that still have to
wake a device. Ghost: the messages accepted, delivered and dropped, in order. -/
structure St where
  queue : List Msg
  th : Nat → Th
  main : MPc
  need : Bool
  sig : List Nat
  got : List Msg
  delivered : List Msg
  dropped : List Msg

/-- `get_events_queue_length`, api/oc_network_events.c:49-60. -/
def count (d : Nat) (q : List Msg) : Nat := q.countP fun m => m.dev == d

/-- The loop of `send_wakeup_signal`, api/oc_network_events.c:62-76: the devices
woken. `cap`: `OC_DEVICE_MAX_NUM_CONCURRENT_REQUESTS`. `none`: not finished after
`fuel` rounds. -/
def wakeLoop (cap : Nat) (q : List Msg) : Nat → Nat → Nat → Option (List Nat)
  | fuel, d, total =>
    if total < cap then some []
    else match fuel with
      | 0 => none
      | fuel + 1 =>
        let c := count d q
        (wakeLoop cap q fuel (d + 1) (total - c)).map fun l => if c ≥ cap then d :: l else l

/-- What is done to one thread. -/
def St.setTh (s : St) (d : Nat) (t : Th) : St := { s with th := fun e => if e = d then t else s.th e }

/-- What can happen. `n` devices. -/
inductive Act where
  /-- the thread looks at the queue -/
  | check (d : Nat)
  /-- `select` returns, with that many sockets to read, or a control event -/
  | select (d : Nat) (ready : Nat) (control : Bool)
  /-- one socket is read: a message from that peer that is valid or not -/
  | recv (d : Nat) (m : Msg) (valid : Bool)
  /-- the poll is requested -/
  | post (d : Nat)
  /-- the thread is done with the events -/
  | next (d : Nat)
  /-- the main loop -/
  | main
  /-- somebody drops the messages of a peer -/
  | drop (d : Nat) (peer : Nat)
  /-- and wakes the device -/
  | dropSig (i : Nat)
deriving Repr

/-- The main loop, api/oc_network_events.c:79-128. -/
def mainStep (cap n : Nat) (s : St) : Option St :=
  match s.main with
  | .idle => if s.need then some { s with need := false, main := .polled } else none
  | .polled => some { s with queue := [], main := .took s.queue }
  | .took b => (wakeLoop cap b n 0 b.length).map fun l => { s with main := .wake b l }
  | .wake b [] => some { s with main := .hand b }
  | .wake b (d :: l) => some { s.setTh d { s.th d with pipe := (s.th d).pipe + 1 } with main := .wake b l }
  | .hand [] => some { s with main := .idle }
  | .hand (m :: b) => some { s with main := .hand b, delivered := s.delivered ++ [m] }

/-- One step; `none`: not possible now. -/
def step (cap n : Nat) (s : St) : Act → Option St
  /- port/linux/ipadapter.c:1096-1104 -/
  | .check d =>
    if d < n ∧ (s.th d).pc = .check then
      some (s.setTh d { s.th d with pc := if count d s.queue ≥ cap then .full else .all })
    else none
  /- `select` (1106) and the first half of `process_events` (976-1011): one byte of the
     pipe is read if there is one; sockets that are too many are not read this time -/
  | .select d ready control =>
    if d < n then
      match (s.th d).pc with
      | .full =>
        if (s.th d).pipe > 0 ∨ control = true then
          some (s.setTh d { s.th d with pipe := (s.th d).pipe - 1, pc := .work 0 })
        else none
      | .all =>
        if (s.th d).pipe > 0 ∨ control = true ∨ ready > 0 then
          some (s.setTh d { s.th d with pipe := (s.th d).pipe - 1, pc := .work (min ready (cap - count d s.queue)) })
        else none
      | _ => none
    else none
  /- `process_socket_read_event` (811-843), `oc_network_receive_event`
     (api/oc_network_events.c:149-168) -/
  | .recv d m valid =>
    if d < n ∧ (s.th d).post = false then
      match (s.th d).pc with
      | .work (k + 1) =>
        if valid then
          some { s.setTh d { s.th d with pc := .work k, post := true } with
            queue := s.queue ++ [{ m with dev := d }], got := s.got ++ [{ m with dev := d }] }
        else some (s.setTh d { s.th d with pc := .work k })
      | _ => none
    else none
  /- api/oc_network_events.c:171 -/
  | .post d =>
    if d < n ∧ (s.th d).post = true then
      some { s.setTh d { s.th d with post := false } with need := true }
    else none
  | .next d =>
    if d < n ∧ (s.th d).post = false then
      match (s.th d).pc with
      | .work _ => some (s.setTh d { s.th d with pc := .check })
      | _ => none
    else none
  | .main => mainStep cap n s
  /- `oc_network_drop_receive_events`, api/oc_network_events.c:192-229 -/
  | .drop d peer =>
    let hit := fun m : Msg => m.dev == d && m.peer == peer
    let rest := s.queue.filter fun m => !hit m
    some { s with
      queue := rest
      dropped := s.dropped ++ s.queue.filter hit
      sig := if count d rest + s.queue.countP hit ≥ cap then s.sig ++ [d] else s.sig }
  | .dropSig i =>
    match s.sig[i]? with
    | none => none
    | some d => some { s.setTh d { s.th d with pipe := (s.th d).pipe + 1 } with sig := s.sig.eraseIdx i }

/-- At the start nothing has been received. -/
def start : St := ⟨[], fun _ => ⟨.check, 0, false⟩, .idle, false, [], [], [], []⟩

/-- A history of steps. -/
def run (cap n : Nat) (s : St) : List Act → Option St
  | [] => some s
  | a :: l => (step cap n s a).bind fun s => run cap n s l

end Verif.NetQueue
