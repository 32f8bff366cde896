import Verif.Common
/-!
The retry counter of the device provisioning client:
api/plgd/device-provisioning-client/plgd_dps_retry.c.
-/
namespace Verif.Dps.Retry

/-- `plgd_dps_retry_t`, plgd_dps_retry_internal.h:49-55: the eight values of the
configuration, the counter and the delay (milliseconds) and timeout (seconds) of the
scheduled action.  `moves` counts the selections of the next server; it is not in the
code. -/
structure R where
  cfg : List Nat := [10, 20, 40, 80, 120, 0, 0, 0]
  count : Nat := 0
  delay : Nat := 0
  timeout : Nat := 0
  moves : Nat := 0
  deriving DecidableEq, Repr

/-- `dps_retry_init`, plgd_dps_retry.c:47-59. -/
def init : R := {}

/-- `plgd_dps_set_retry_configuration`, plgd_dps_retry.c:61-83; `none` is false. -/
def setCfg (r : R) (cfg : List Nat) : Option R :=
  if cfg.length = 0 ∨ cfg.length > 8 then none
  else if cfg.any (· == 0) then none
  else some { r with cfg := cfg ++ List.replicate (8 - cfg.length) 0 }

/-- `dps_retry_size`, plgd_dps_retry.c:109-119: the index of the first zero. -/
def size (r : R) : Nat := (r.cfg.take 8).findIdx (· == 0)

/-- `plgs_dps_get_retry_configuration`, plgd_dps_retry.c:85-107, with a buffer of `n`
bytes; `none` is -1. -/
def getCfg (r : R) (n : Nat) : Option (List Nat) :=
  if n < size r then none else some (r.cfg.take (size r))

/-- `get_delay_from_timeout`, plgd_dps_retry.c:122-133, with the random value `rnd`. -/
def delayOf (timeout rnd : Nat) : Nat :=
  if timeout = 0 then rnd % 256
  else timeout * 1000 / 2 + rnd % (timeout * 1000 / 2)

/-- The scheduler: `none` is the default one; an application's callback is given by
what it answers for the retry counter, `none` for false, else delay and timeout
(include/plgd/plgd_dps.h:436-454). -/
abbrev Sched := Option (Nat → Option (Nat × Nat))

/-- `on_action_response_set_retry`, plgd_dps_retry.c:163-186, with
`default_schedule_action` 135-148.  The result is false or the delay and timeout, and
the state, in which only `moves` changes. -/
def setRetry (s : Sched) (rnd : Nat) (r : R) (count : Nat) : Option (Nat × Nat) × R :=
  match s with
  | some cb => (cb count, r)
  | none =>
    if count ≥ size r then (none, { r with moves := r.moves + 1 })
    else (some (delayOf (r.cfg.getD count 0) rnd, r.cfg.getD count 0), r)

/-- `dps_retry_reset`, plgd_dps_retry.c:220-231, with the call of
`dps_schedule_action` 188-210 for the counter 0. -/
def reset (s : Sched) (rnd rnd2 : Nat) (r : R) : R :=
  let x := setRetry s rnd { r with count := 0 } 0
  match x.1 with
  | some (d, t) => { x.2 with delay := d, timeout := t }
  | none => { x.2 with timeout := 2, delay := delayOf 2 rnd2 }

/-- `dps_retry_increment`, plgd_dps_retry.c:212-218, with `dps_schedule_action`
188-210.  The counter is a `uint8_t`. -/
def increment (s : Sched) (rnd rnd2 : Nat) (r : R) : R :=
  let r := { r with count := (r.count + 1) % 256 }
  let x := setRetry s rnd r r.count
  match x.1 with
  | some (d, t) => { x.2 with delay := d, timeout := t }
  | none => if r.count = 0 then x.2 else reset s rnd rnd2 x.2

/-- `dps_retry_get_timeout`, plgd_dps_retry.c:233-242; the failing assertion of line
236 is undefined behaviour here. -/
def getTimeout (r : R) : Out Nat :=
  if r.count < 8 then .ok (if r.timeout = 0 then 2 else r.timeout) else .ub

/-- `dps_retry_get_delay`, plgd_dps_retry.c:244-253; the failing assertion of line 247
is undefined behaviour here. -/
def getDelay (rnd : Nat) (r : R) : Out Nat :=
  if r.count < 8 then .ok (if r.delay = 0 then delayOf 2 rnd else r.delay) else .ub

/-- What happens to the counter: `set` a new configuration, an attempt failed
(`increment`), an action succeeded (`reset`).  The random values and, with the
application's scheduler, its answers are part of the step. -/
inductive Op where
  | set (cfg : List Nat)
  | failed (s : Sched) (rnd rnd2 : Nat)
  | done (s : Sched) (rnd rnd2 : Nat)

/-- One step. -/
def step (r : R) : Op → R
  | .set cfg => (setCfg r cfg).getD r
  | .failed s a b => increment s a b r
  | .done s a b => reset s a b r

/-- A history. -/
def run (r : R) (ops : List Op) : R := ops.foldl step r

/-- The scheduler of a step. -/
def Op.sched : Op → Sched
  | .set _ => none
  | .failed s _ _ => s
  | .done s _ _ => s

end Verif.Dps.Retry
