import Verif.Timer.Model
import Verif.Process.Model
/-!
Model of the event timers of `util/oc_etimer.c`.

Timers are identified by their address (`Nat`).  The `next` chain from
`g_timerlist` is represented by the sequence of its members.  Each function reads
the clock through one argument `now` (the C code reads it again within a call;
simplification: all reads of one call return the same value).  The event queue is
the sequence specified in C12; `lim` is the capacity of a queue that cannot grow.
-/
namespace Verif.Etimer
open Verif.Timer Verif.Process

/-- `struct oc_etimer`, util/oc_etimer.h (without the `next` pointer). -/
structure ET where
  timer : Timer
  p : Option Nat
  deriving Repr, DecidableEq

/-- `g_timerlist`, the timers, `g_next_expiration` (util/oc_etimer.c:43-45), the
event queue and the pending poll of the etimer process. -/
structure St where
  list : List Nat
  et : Nat → ET
  nextExp : Nat
  queue : List Ev
  pollReq : Bool

/-- `OC_PROCESS_EVENT_TIMER`, util/oc_process.h. -/
def evTimer : Nat := 0x88

/-- Assignment to a field of a timer (C assignment). -/
def St.upd (s : St) (i : Nat) (f : ET → ET) : St :=
  { s with et := fun j => if j = i then f (s.et j) else s.et j }

/-- Loop of `etimer_update_time`, util/oc_etimer.c:62-67. -/
def minUntil (et : Nat → ET) (now : Nat) : Nat → List Nat → Nat
  | d, [] => d
  | d, t :: r =>
    let d2 := untilT (et t).timer now
    minUntil et now (if d2 < d then d2 else d) r

/-- `etimer_update_time`, util/oc_etimer.c:49-70. -/
def updateTime (s : St) (now : Nat) : St :=
  match s.list with
  | [] => { s with nextExp := 0 }
  | t :: r =>
    let tdist := minUntil s.et now (untilT (s.et t).timer now) r
    { s with nextExp := (now + tdist) % W }

/-- Loop of `etimer_process_poll`, util/oc_etimer.c:72-100: `pre` are the members
already passed.  The result is the timer that was posted, if any. -/
def pollWalk (lim : Option Nat) (now : Nat) : St → List Nat → List Nat → St × Option Nat
  | s, _, [] => (s, none)
  | s, pre, t :: r =>
    if !(expired (s.et t).timer now) then pollWalk lim now s (pre ++ [t]) r
    else if lim = some s.queue.length then
      pollWalk lim now { s with pollReq := true } (pre ++ [t]) r
    else
      let s := { s with queue := s.queue ++ [(⟨(s.et t).p, evTimer, t⟩ : Ev)] }
      let s := s.upd t fun e => { e with p := none }
      let s := { s with list := pre ++ r }
      (updateTime s now, some t)

/-- One call of `etimer_process_poll`, util/oc_etimer.c:72-100. -/
def pollOnce (lim : Option Nat) (s : St) (now : Nat) : St × Option Nat :=
  pollWalk lim now s [] s.list

/-- The loop of the etimer process for a POLL event, util/oc_etimer.c:138-140; the
fuel is the number of timers plus one. -/
def pollAll (lim : Option Nat) (now : Nat) : Nat → St → St
  | 0, s => s
  | k + 1, s => match pollOnce lim s now with
    | (s, some _) => pollAll lim now k s
    | (s, none) => s

/-- `etimer_remove_process_pending_timers`, util/oc_etimer.c:102-121.  It does not
update the next expiration time. -/
def exited (s : St) (p : Nat) : St :=
  { s with list := s.list.filter fun t => (s.et t).p ≠ some p }

/-- `etimer_add_timer`, util/oc_etimer.c:153-176; `cur` is `OC_PROCESS_CURRENT()`.
Linking a timer that is a member already (possible when its process is NONE)
corrupts the chain and is `ub`. -/
def addTimer (s : St) (i : Nat) (cur : Option Nat) (now : Nat) : Out St :=
  let s := { s with pollReq := true }
  let inList := (s.et i).p ≠ none ∧ i ∈ s.list
  if inList then
    .ok (updateTime (s.upd i fun e => { e with p := cur }) now)
  else if i ∈ s.list then .ub
  else
    .ok (updateTime ({ s with list := i :: s.list }.upd i fun e => { e with p := cur }) now)

/-- `oc_etimer_set`, util/oc_etimer.c:178-184. -/
def etSet (s : St) (i interval : Nat) (cur : Option Nat) (now : Nat) : Out St :=
  addTimer (s.upd i fun e => { e with timer := Timer.set interval now }) i cur now

/-- `oc_etimer_reset_with_new_interval`, util/oc_etimer.c:186-193. -/
def etResetNew (s : St) (i interval : Nat) (cur : Option Nat) (now : Nat) : Out St :=
  addTimer (s.upd i fun e => { e with timer := { reset e.timer with interval := interval } }) i cur now

/-- `oc_etimer_reset`, util/oc_etimer.c:195-200. -/
def etReset (s : St) (i : Nat) (cur : Option Nat) (now : Nat) : Out St :=
  addTimer (s.upd i fun e => { e with timer := reset e.timer }) i cur now

/-- `oc_etimer_restart`, util/oc_etimer.c:202-207. -/
def etRestart (s : St) (i : Nat) (cur : Option Nat) (now : Nat) : Out St :=
  addTimer (s.upd i fun e => { e with timer := restart e.timer now }) i cur now

/-- `oc_etimer_adjust`, util/oc_etimer.c:209-214 (`int` added modulo `2^64`). -/
def etAdjust (s : St) (i : Nat) (diff : Int) (now : Nat) : St :=
  updateTime (s.upd i fun e =>
    { e with timer := { e.timer with start := ((e.timer.start + diff) % (W : Int)).toNat } }) now

/-- `oc_etimer_stop`, util/oc_etimer.c:246-275.  The next expiration is recomputed
only if the timer was a member. -/
def etStop (s : St) (i : Nat) (now : Nat) : St :=
  let s' := if i ∈ s.list then updateTime { s with list := s.list.filter (· ≠ i) } now else s
  s'.upd i fun e => { e with p := none }

/-- `oc_etimer_expired`, util/oc_etimer.c:216-220. -/
def etExpired (s : St) (i : Nat) : Bool := (s.et i).p == none

/-- `oc_etimer_next_expiration_time`, util/oc_etimer.c:234-244; 0 if nothing is
pending. -/
def nextExpiration (s : St) : Nat := if s.list ≠ [] then s.nextExp else 0

/-- Start of the etimer process, util/oc_etimer.c:126. -/
def init (et : Nat → ET) : St := ⟨[], et, 0, [], false⟩

end Verif.Etimer
