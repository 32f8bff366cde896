import Verif.PlgdTime.Model

/-! A device in the world: real time goes on, the device is synchronised, restarted. -/

namespace Verif.PlgdTime

/-- The device, real time, and the real time at which it was started (its monotonic
clock shows the difference). `synced`: it was told the time since the
start, and the time was not reset since. -/
structure World where
  s : St
  real : Nat
  boot : Nat
  synced : Bool

/-- What the monotonic clock shows. -/
def World.mono (w : World) : Nat := w.real - w.boot

/-- All readings in one call show the same. -/
def World.reads (w : World) : Reads := ⟨some w.mono, some w.mono, some w.mono⟩

/-- What happens. -/
inductive Ev where
  /-- time goes by -/
  | pass (d : Nat)
  /-- the device is told the real time by the API -/
  | sync (saved : Bool)
  /-- the device is restarted after some time -/
  | restart (down : Nat)
  /-- the application sets the status -/
  | status (v : Nat)
  /-- the time is forgotten -/
  | reset (saved : Bool)

/-- One event. -/
def World.step (w : World) : Ev → Out World
  | .pass d => .ok { w with real := w.real + d }
  | .sync saved => (apiSet w.s w.real w.reads saved).bind fun x => .ok { w with s := x.2, synced := true }
  | .restart d =>
    let w := { w with real := w.real + d, boot := w.real + d, synced := false }
    (restart w.s w.reads).bind fun s => .ok { w with s := s }
  | .status v => .ok { w with s := { w.s with status := v } }
  | .reset saved => (apiSet w.s 0 w.reads saved).bind fun x => .ok { w with s := x.2, synced := false }

/-- A history. -/
def World.run (w : World) : List Ev → Out World
  | [] => .ok w
  | v :: l => (w.step v).bind fun w => w.run l

/-- How much time goes by. -/
def Ev.length : Ev → Nat
  | .pass d => d
  | .restart d => d
  | _ => 0

/-- The end of the year 9999 in ticks. -/
def endOfTime : Nat := 253402300799 * 1000000

end Verif.PlgdTime
