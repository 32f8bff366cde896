import Verif.Process.Model
/-! Specification of the event queue: a finite sequence of events. -/
namespace Verif.Process.Spec

/-- Calls on the queue. -/
inductive Op where
  | post (e : Ev)
  | take
  | drop (p : Nat) (dropEvent : Nat → Nat → Bool)

/-- Result of a call. -/
inductive Res where
  | posted (ok : Bool)
  | taken (e : Option Ev)
  | dropped (n : Nat)
  deriving Repr, DecidableEq

/-- An event meant for process `p` that the predicate selects. -/
def Selected (p : Nat) (f : Nat → Nat → Bool) (e : Ev) : Bool :=
  e.p == some p && f e.ev e.data

/-- Effect and result; `limit` is the capacity of a queue that cannot grow. -/
def step (limit : Option Nat) (l : List Ev) : Op → List Ev × Res
  | .post e => if limit = some l.length then (l, .posted false) else (l ++ [e], .posted true)
  | .take => (l.tail, .taken l.head?)
  | .drop p f => (l.filter (fun e => !Selected p f e), .dropped (l.filter (Selected p f)).length)

end Verif.Process.Spec
