import Verif.Common
/-!
Model of the delayed callbacks and the periodic observe callbacks,
`api/oc_event_callback.c`, with the parts of `api/oc_ri.c` that add and remove
periodic callbacks.

A callback structure is identified by the number of its allocation, so that using a
structure after it was freed is visible (`ub`).  User code is an environment: the
`n`-th callback that is run performs a list of actions and returns DONE or CONTINUE.
A function passed as `on_delete` is only recorded (simplification: it performs no
actions).  That a timer expires is an operation of the environment: the etimer process
marks it (util/oc_etimer.c:89, see C11).  A callback that polls the event loop itself
is not modelled.
-/
namespace Verif.Delayed

/-- `oc_event_callback_t`, api/oc_event_callback_internal.h; `expired` is
`oc_etimer_expired`, util/oc_etimer.c:216-220. -/
structure Cb where
  id : Nat
  fn : Nat
  data : Nat
  expired : Bool
  deriving DecidableEq, Repr

/-- What is recorded (not part of the code). -/
inductive Ev where
  | added (id : Nat)
  | due (id : Nat)
  | ran (id : Nat)
  | freed (id : Nat)
  | onDelete (f data : Nat)
  deriving DecidableEq, Repr

/-- The static variables, oc_event_callback.c:37-48, and the resources that exist with
the number of their observers (`num_observers`). -/
structure St where
  timed : List Cb
  obs : List Cb
  cur : Option Nat
  curDel : Bool
  onDel : Option Nat
  /-- number of allocations -/
  next : Nat
  /-- number of callbacks run -/
  runs : Nat
  res : List Nat
  observers : Nat → Nat
  log : List Ev

/-- Calls a user can make, at any time or from within a callback. -/
inductive Act where
  /-- `oc_set_delayed_callback` and `oc_ri_add_timed_event_callback_ticks`; `ok`: memory
  could be allocated -/
  | add (fn data : Nat) (ok : Bool)
  /-- `oc_remove_delayed_callback_by_filter`; `oc_remove_delayed_callback` is the case of
  a filter for one value, not all, without `on_delete` -/
  | remove (fn : Nat) (p : Nat → Bool) (all : Bool) (onDel : Option Nat)
  /-- `oc_add_resource` for a periodic resource -/
  | resAdd (r : Nat)
  /-- `oc_delete_resource` -/
  | resDel (r : Nat)
  /-- an observation is registered, `ri_add_observation` -/
  | register (r : Nat) (ok : Bool)
  /-- an observation is cancelled by its client, `ri_remove_observation` -/
  | unregister (r : Nat)

/-- `oc_ri_add_timed_event_callback_ticks`, oc_event_callback.c:176-194. -/
def addTimed (fn data : Nat) (s : St) : St :=
  { s with timed := s.timed ++ [⟨s.next, fn, data, false⟩], next := s.next + 1, log := s.log ++ [.added s.next] }

/-- What the loop of `oc_ri_remove_timed_event_callback_by_filter`,
oc_event_callback.c:126-152, leaves: the callbacks kept, those removed, and whether the
callback being processed is to be deleted. -/
def removeLoop (cur : Option Nat) (fn : Nat) (p : Nat → Bool) (all : Bool) :
    List Cb → Bool → List Cb × List Cb × Bool
  | [], w => ([], [], w)
  | c :: l, w =>
    if c.fn ≠ fn ∨ ¬ p c.data then
      let r := removeLoop cur fn p all l w
      (c :: r.1, r.2.1, r.2.2)
    else if cur = some c.id then
      if all then
        let r := removeLoop cur fn p all l true
        (c :: r.1, r.2.1, r.2.2)
      else (c :: l, [], true)
    else
      if all then
        let r := removeLoop cur fn p all l false
        (r.1, c :: r.2.1, r.2.2)
      else (l, [c], false)

/-- What is recorded for a removed callback, oc_event_callback.c:140-145. -/
def removedLog (onDel : Option Nat) (c : Cb) : List Ev :=
  (match onDel with | none => [] | some f => [Ev.onDelete f c.data]) ++ [.freed c.id]

/-- `oc_ri_remove_timed_event_callback_by_filter`, oc_event_callback.c:118-160. -/
def removeTimed (fn : Nat) (p : Nat → Bool) (all : Bool) (onDel : Option Nat) (s : St) : St :=
  let r := removeLoop s.cur fn p all s.timed false
  let s := { s with timed := r.1, log := s.log ++ r.2.1.flatMap (removedLog onDel) }
  if r.2.2 then { s with curDel := true, onDel := onDel } else s

/-- `oc_periodic_observe_callback_add`, oc_event_callback.c:243-271. -/
def obsAdd (r : Nat) (ok : Bool) (s : St) : St :=
  if s.obs.any (fun c => c.data == r) then s
  else if ok then
    { s with obs := s.obs ++ [⟨s.next, 0, r, false⟩], next := s.next + 1, log := s.log ++ [.added s.next] }
  else s

/-- `oc_periodic_observe_callback_remove`, oc_event_callback.c:273-287. -/
def obsRemove (r : Nat) (s : St) : St :=
  match s.obs.find? (fun c => c.data == r) with
  | none => s
  | some c => { s with obs := s.obs.filter (fun x => x.id != c.id), log := s.log ++ [.freed c.id] }

/-- One call.  `register`: oc_ri.c:896-941 (simplification: adding the observer always
succeeds).  `unregister`: oc_ri.c:958-971, of one of the registered observers.
`resDel`: `ri_delete_resource`, oc_ri.c:548-624, which removes the observers but not the
periodic callback (simplification: the delayed callbacks of the library for the resource
are not modelled). -/
def act (s : St) : Act → St
  | .add fn data ok => if ok then addTimed fn data s else s
  | .remove fn p all onDel => removeTimed fn p all onDel s
  | .resAdd r => if r ∈ s.res then s else { s with res := r :: s.res }
  | .resDel r => { s with res := s.res.filter (· != r), observers := fun x => if x = r then 0 else s.observers x }
  | .register r ok =>
    if r ∈ s.res then
      obsAdd r ok { s with observers := fun x => if x = r then s.observers x + 1 else s.observers x }
    else s
  | .unregister r =>
    if r ∈ s.res ∧ 0 < s.observers r then
      obsRemove r { s with observers := fun x => if x = r then s.observers x - 1 else s.observers x }
    else s

/-- The list that is polled: periodic (`true`) or delayed callbacks. -/
def St.list (s : St) (w : Bool) : List Cb := if w then s.obs else s.timed
/-- Assignment to the list that is polled (modelling convention). -/
def St.setList (s : St) (w : Bool) (l : List Cb) : St := if w then { s with obs := l } else { s with timed := l }

/-- The call of the callback, oc_event_callback.c:206-208; `b` are the actions of the
user code.  The periodic handler (:233-241) uses the resource. -/
def invoke (w : Bool) (b : List Act) (c : Cb) (s : St) : Out St :=
  if w ∧ c.data ∉ s.res then .ub
  else
    .ok (b.foldl act { s with cur := some c.id, curDel := false, runs := s.runs + 1, log := s.log ++ [.ran c.id] })

/-- After the callback, oc_event_callback.c:208-223; `done`: it returned
`OC_EVENT_DONE`.  If the structure was freed in the meantime this is a use after free. -/
def finish (w : Bool) (done : Bool) (c : Cb) (s : St) : Out St :=
  if (s.list w).all (fun x => x.id != c.id) then .ub
  else if done ∨ s.curDel then
    .ok { s.setList w ((s.list w).filter (fun x => x.id != c.id)) with log := s.log ++ removedLog s.onDel c }
  else .ok (s.setList w ((s.list w).map fun x => if x.id = c.id then { x with expired := false } else x))

/-- The loop of `event_callbacks_poll_timers`, oc_event_callback.c:199-224: it begins
again at the head of the list after each callback, so it always takes the first expired
one.  The fuel is the number of expired callbacks at the beginning. -/
def pollLoop (beh : Nat → List Act × Bool) (w : Bool) : Nat → St → Out St
  | 0, s => .ok s
  | k + 1, s =>
    match (s.list w).find? (·.expired) with
    | none => .ok s
    | some c =>
      (invoke w (beh s.runs).1 c s).bind fun s' => (finish w (beh s.runs).2 c s').bind (pollLoop beh w k)

/-- `event_callbacks_poll_timers`, oc_event_callback.c:196-229. -/
def pollTimers (beh : Nat → List Act × Bool) (w : Bool) (s : St) : Out St :=
  (pollLoop beh w ((s.list w).filter (·.expired)).length s).bind fun s =>
    .ok { s with cur := none, curDel := false, onDel := none }

/-- `event_callbacks_check`, oc_event_callback.c:310-317. -/
def poll (beh : Nat → List Act × Bool) (s : St) : Out St := (pollTimers beh true s).bind (pollTimers beh false)

/-- A timer in `which` expires: the etimer process resets its process,
util/oc_etimer.c:86-96. -/
def expireList (which : Nat → Bool) (l : List Cb) : List Cb :=
  l.map fun c => if which c.id then { c with expired := true } else c

/-- What happens. -/
inductive Op where
  | act (a : Act)
  | expire (which : Nat → Bool)
  | poll

/-- The timers that expire now (recorded). -/
def dueLog (which : Nat → Bool) (l : List Cb) : List Ev :=
  (l.filter fun c => which c.id && !c.expired).map fun c => .due c.id

/-- One operation. -/
def step (beh : Nat → List Act × Bool) (s : St) : Op → Out St
  | .act a => .ok (act s a)
  | .expire which =>
    .ok { s with
      timed := expireList which s.timed, obs := expireList which s.obs,
      log := s.log ++ (dueLog which s.timed ++ dueLog which s.obs) }
  | .poll => poll beh s

/-- A history. -/
def run (beh : Nat → List Act × Bool) : St → List Op → Out St
  | s, [] => .ok s
  | s, o :: os => (step beh s o).bind fun s => run beh s os

/-- The start, `oc_event_callbacks_init`, oc_event_callback.c:50-57. -/
def init : St := ⟨[], [], none, false, none, 0, 0, [], fun _ => 0, []⟩

end Verif.Delayed
