import Verif.TcpConn.Model

/-!
What a user sees of one connection, and the stories it can have.
-/

namespace Verif.TcpConn.Spec

open Verif.TcpConn

/-- What happened to one connection so far. -/
structure View where
  made : List (Option Nat) := []
  told : List (Nat × Told) := []
  began : Nat := 0
  ended : Nat := 0
  tries : Nat := 0
  took : List Bytes := []
  wrote : List (Bytes × Bool) := []
  refs : List Bytes := []
  unrefs : List Bytes := []
  deriving DecidableEq, Repr

/-- One event, seen by an observer of connection `n`. -/
def see (n : Nat) (v : View) : Ev → View
  | .made k cb => if k = n then { v with made := v.made ++ [cb] } else v
  | .told k cb t => if k = n then { v with told := v.told ++ [(cb, t)] } else v
  | .began k => if k = n then { v with began := v.began + 1 } else v
  | .ended k => if k = n then { v with ended := v.ended + 1 } else v
  | .tried k => if k = n then { v with tries := v.tries + 1 } else v
  | .took k m => if k = n then { v with took := v.took ++ [m] } else v
  | .wrote k d whole => if k = n then { v with wrote := v.wrote ++ [(d, whole)] } else v
  | .ref k m => if k = n then { v with refs := v.refs ++ [m] } else v
  | .unref k m => if k = n then { v with unrefs := v.unrefs ++ [m] } else v

/-- What an observer of connection `n` has seen. -/
def view (log : List Ev) (n : Nat) : View := log.foldl (see n) {}

/-- The writes are those of the messages, in order: each the beginning of its message, and
all of it unless the system refused the rest. -/
def Streamed : List Bytes → List (Bytes × Bool) → Prop
  | [], [] => True
  | m :: ms, d :: ds => d.1 <+: m ∧ (d.2 = true → d.1 = m) ∧ Streamed ms ds
  | _, _ => False

/-- The callbacks, if there is one, with one result. -/
def Answered (v : View) (cb : Option Nat) (t : Told) : Prop := v.told = cb.toList.map fun f => (f, t)

/-- A connection that is being made: nobody was told anything; the messages given to it
are those in `msgs`, each with a reference. -/
def Pending (v : View) (cb : Option Nat) (msgs : List Bytes) : Prop :=
  v.made = [cb] ∧ v.told = [] ∧ v.began = 0 ∧ v.ended = 0 ∧ v.took = msgs ∧ v.wrote = [] ∧ v.refs = msgs ∧ v.unrefs = []

/-- An open connection: who asked was told so once; the messages given to it were written
in order; no reference is left. -/
def Running (v : View) (secured : Bool) : Prop :=
  ∃ cb, v.made = [cb] ∧ Answered v cb .connected ∧ v.began = (if secured then 0 else 1) ∧ v.ended = 0 ∧
    Streamed v.took v.wrote ∧ v.refs = v.unrefs

/-- A connection that could not be made: who asked was told so once; nothing was written;
no reference is left. -/
def Failed (v : View) : Prop :=
  ∃ cb t, v.made = [cb] ∧ t ≠ .connected ∧ Answered v cb t ∧ v.began = 0 ∧ v.ended = 0 ∧ v.wrote = [] ∧ v.refs = v.unrefs

/-- A connection that was open and is closed; its end is announced at most once. -/
def Closed (v : View) : Prop :=
  ∃ cb, v.made = [cb] ∧ Answered v cb .connected ∧ v.began ≤ 1 ∧ v.ended ≤ 1 ∧ Streamed v.took v.wrote ∧ v.refs = v.unrefs

/-- A connection that was never recorded: nothing happened but calls of `connect`. -/
def Never (v : View) : Prop :=
  v.made = [] ∧ v.told = [] ∧ v.began = 0 ∧ v.ended = 0 ∧ v.took = [] ∧ v.wrote = [] ∧ v.refs = [] ∧ v.unrefs = []

/-- The system's side of a call: new descriptors are positive and below the limit of
`fd_set`. -/
def Good (p : Pick) : Prop := ∀ l x, p.fd l = some x → 0 < x ∧ x < 1024

/-- A call in a healthy environment; `M` bounds the number of retries that are configured.
When a connection is tried again there is memory for the session. -/
def Proper (M : Nat) : Op → Prop
  | .send _ _ os => Good os.pick
  | .send2 _ _ _ _ => True
  | .connect _ _ os => Good os.pick
  | .endSess _ _ => True
  | .accept _ scope pick _ => scope < 255 ∧ Good pick
  | .lost _ _ => True
  | .signal _ => True
  | .ready _ _ => True
  | .tick _ os => ∀ n, Good (os n).pick ∧ (os n).okS = true
  | .shutdown _ _ => True
  | .setRetry c _ => c ≤ M

end Verif.TcpConn.Spec
