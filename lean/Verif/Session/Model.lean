import Verif.Common

/-!
Model of the events of TCP sessions (api/oc_session_events.c) and of the callbacks
registered for them, with the threads that raise the events and the thread of the
main loop interleaved step by step, and of the polling of processes
(util/oc_process.c) that connects them.

Simplifications: the lock around each access of a list makes it one step; memory
for the copy of an endpoint and for the delayed callback can be allocated (but see
`startEvent`); a session is a number; the removal of the TLS peer and of the
observers of the endpoint (338-351) are not modelled; the delay of disconnect events
is any time.
-/

namespace Verif.Session

/-- `oc_session_state_t`. -/
inductive Kind where
  | connected
  | disconnected
  deriving DecidableEq, Repr

/-- Where the thread of the main loop is: between two callbacks; in `do_poll`
(util/oc_process.c:269-283) before the session process; in the loop over started
sessions (api/oc_session_events.c:99-109); before counting ended ones (111-114); in
`free_session_state_delayed` (64-82). -/
inductive Pc where
  | idle
  | scan
  | starts
  | check
  | ending
  deriving DecidableEq, Repr

/-- The state. `inflight`: events whose threads found the process running
(133, 156) and did not add them yet; `d1`, `d2`: threads that added one and have
still to store `needspoll`, `g_poll_requested`; `need`, `req`: these two variables;
`sched`: delayed callbacks pending; `pushed`, `log`: all events added to the lists,
all events delivered, in order (ghosts). -/
structure St where
  running : Bool
  inflight : List (Kind × Nat)
  starts : List Nat
  ends : List Nat
  d1 : Nat
  d2 : Nat
  need : Bool
  req : Bool
  pc : Pc
  sched : Nat
  pushed : List (Kind × Nat)
  log : List (Kind × Nat)
  deriving DecidableEq

/-- After the process was started (oc_process_start util/oc_process.c:113-135). -/
def init : St := ⟨true, [], [], [], 0, 0, false, false, .idle, 0, [], []⟩

/-- oc_list_add to one of the two lists, api/oc_session_events.c:145-147, 168-170. -/
def put (s : St) (k : Kind) (id : Nat) : St :=
  match k with
  | .connected => { s with starts := s.starts ++ [id], pushed := s.pushed ++ [(k, id)] }
  | .disconnected => { s with ends := s.ends ++ [id], pushed := s.pushed ++ [(k, id)] }

/-- A step of the thread of the main loop; `none` if it has nothing to do. -/
def mainStep (s : St) : Option St :=
  match s.pc with
  -- oc_process_run util/oc_process.c:349-351, do_poll 272
  | .idle => if s.req then some { s with req := false, pc := .scan } else none
  -- do_poll 274-282; a process that exited is not in the list
  | .scan =>
    if s.running && s.need then some { s with need := false, pc := .starts }
    else some { s with pc := .idle }
  -- api/oc_session_events.c:100-109
  | .starts =>
    match s.starts with
    | [] => some { s with pc := .check }
    | id :: l => some { s with starts := l, log := s.log ++ [(.connected, id)] }
  -- 111-114
  | .check => some { s with sched := if s.ends.isEmpty then s.sched else s.sched + 1, pc := .idle }
  -- 69-79
  | .ending =>
    match s.ends with
    | [] => some { s with pc := .idle }
    | id :: l => some { s with ends := l, log := s.log ++ [(.disconnected, id)] }

/-- What can happen next. -/
inductive Act where
  /-- a thread raises an event and checks that the process runs -/
  | event (k : Kind) (id : Nat)
  /-- the thread of the i-th such event adds it to the list -/
  | push (i : Nat)
  /-- a thread stores `needspoll` -/
  | need
  /-- a thread stores `g_poll_requested` -/
  | req
  /-- another process is polled -/
  | other
  /-- the main loop goes on -/
  | main
  /-- a delayed callback is due -/
  | timer
  /-- the process is ended -/
  | exit
  deriving DecidableEq

/-- One step; `none` if it is not possible. oc_session_start_event and
oc_session_end_event api/oc_session_events.c:130-174, oc_process_poll
util/oc_process.c:493-503, exit of the process 126. -/
def step (s : St) : Act → Option St
  | .event k id => some (if s.running then { s with inflight := s.inflight ++ [(k, id)] } else s)
  | .push i =>
    match s.inflight[i]? with
    | none => none
    | some (k, id) => some { put s k id with inflight := s.inflight.eraseIdx i, d1 := s.d1 + 1 }
  | .need =>
    if s.d1 = 0 then none
    else if s.running then some { s with d1 := s.d1 - 1, d2 := s.d2 + 1, need := true }
    else some { s with d1 := s.d1 - 1 }
  | .req => if s.d2 = 0 then none else some { s with d2 := s.d2 - 1, req := true }
  | .other => some { s with req := true }
  | .main => mainStep s
  | .timer => if s.pc = .idle ∧ s.sched ≠ 0 then some { s with sched := s.sched - 1, pc := .ending } else none
  | .exit => if s.pc = .idle ∧ s.running then some { s with running := false, pc := .ending } else none

/-- A schedule. -/
def run (s : St) : List Act → Option St
  | [] => some s
  | a :: l => match step s a with
    | none => none
    | some t => run t l

/-- oc_session_start_event, oc_session_end_event api/oc_session_events.c:141-142,
164-165: the copy of the endpoint; the result of the allocation is not checked. -/
def startEvent (alloc : Bool) : Out Unit := if alloc then .ok () else .ub

/-! ### Callbacks -/

/-- `oc_session_event_cb_t`: `id` is its address, `v1` the version of the handler. -/
structure Cb where
  id : Nat
  v1 : Bool
  handler : Nat
  data : Nat
  deriving DecidableEq

/-- What a handler does with the list of callbacks. -/
inductive Op where
  | add (v1 : Bool) (handler data : Nat)
  | remove (v1 : Bool) (handler data : Nat) (ignore : Bool)
  deriving DecidableEq

/-- The list of callbacks and the next address. Addresses are not used again
(simplification). -/
structure Cbs where
  list : List Cb
  next : Nat
  deriving DecidableEq

/-- The test of oc_session_event_callback_find, api/oc_session_events.c:249-264. -/
def hit (v1 : Bool) (handler data : Nat) (ignore : Bool) (c : Cb) : Bool :=
  (c.v1 == v1) && (c.handler == handler) && (!v1 || ignore || c.data == data)

/-- session_event_add_callback 203-220 and session_event_remove_callback 269-282 (the
first one found is removed). -/
def applyOp (s : Cbs) : Op → Cbs
  | .add v1 h d => ⟨s.list ++ [⟨s.next, v1, h, if v1 then d else 0⟩], s.next + 1⟩
  | .remove v1 h d ig => { s with list := s.list.eraseP (hit v1 h d ig) }

/-- The rest of the list after the callback with an address; `none` if it is not
in the list any more. -/
def after (id : Nat) : List Cb → Option (List Cb)
  | [] => none
  | c :: l => if c.id = id then some l else after id l

/-- handle_session_event_callback api/oc_session_events.c:308-325: `rest` starts with
the current item; the handler may change the list; then `cb_item->next` is read
from the current item. The result lists the calls: handler and its data. `fuel`
bounds the number of calls (handlers may add callbacks for ever); `none`: not
finished. -/
def fire (beh : Nat → List Op) : Nat → Cbs → Option Cb → Option (Out (List (Nat × Nat) × Cbs))
  | _, s, none => some (.ok ([], s))
  | 0, _, some _ => none
  | n + 1, s, some c =>
    let s := (beh c.handler).foldl applyOp s
    match after c.id s.list with
    | none => some .ub
    | some l =>
      match fire beh n s l.head? with
      | some (.ok (calls, t)) => some (.ok ((c.handler, if c.v1 then c.data else 0) :: calls, t))
      | r => r

end Verif.Session
