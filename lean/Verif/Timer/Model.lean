import Verif.Common
/-! Model of `util/oc_timer.c`.  `oc_clock_time_t` is an unsigned 64 bit integer;
arithmetic is modulo `2^64`.  The monotonic clock is an argument. -/
namespace Verif.Timer

/-- Range of `oc_clock_time_t`, port/oc_clock.h (`uint64_t`). -/
def W : Nat := 2 ^ 64

/-- `struct oc_timer`, util/oc_timer.h. -/
structure Timer where
  start : Nat
  interval : Nat
  deriving Repr, DecidableEq

/-- `oc_timer_set`, util/oc_timer.c:44-49. -/
def set (interval now : Nat) : Timer := ⟨now, interval⟩

/-- `oc_timer_reset`, util/oc_timer.c:51-55. -/
def reset (t : Timer) : Timer := { t with start := (t.start + t.interval) % W }

/-- `oc_timer_restart`, util/oc_timer.c:57-61. -/
def restart (t : Timer) (now : Nat) : Timer := { t with start := now }

/-- `timer_expired`/`oc_timer_expired`, util/oc_timer.c:63-79. -/
def expired (t : Timer) (now : Nat) : Bool :=
  if t.start > now then false
  else
    let diff := ((now - t.start) + 1) % W
    t.interval < diff

/-- `oc_timer_until`/`oc_timer_remaining`, util/oc_timer.c:81-94.  The C expression
`t->start + t->interval - time` wraps modulo `2^64`. -/
def untilT (t : Timer) (now : Nat) : Nat :=
  if expired t now then 0
  else (t.start + t.interval + (W - now)) % W

/-- `oc_timer_expiration_time`, util/oc_timer.c:96-100. -/
def expiration (t : Timer) : Nat := (t.start + t.interval) % W

end Verif.Timer
