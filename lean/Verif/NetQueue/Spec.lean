import Verif.NetQueue.Model

/-! What the queue of received messages promises. -/

namespace Verif.NetQueue

/-- The messages on their way from the queue to the handler, oldest first. -/
def held (s : St) : List Msg :=
  match s.main with
  | .took b | .wake b _ | .hand b => b
  | _ => []

/-- A thread that waits in `select` without listening to its sockets, with no wake-up
on its way in the pipe. -/
def deaf (t : Th) : Prop := t.pc = .full ∧ t.pipe = 0

/-- A thread that listens to its sockets. -/
def listening (t : Th) : Prop := t.pc = .all

/-- The steps that happen by themselves: no message arrives, nothing is dropped. -/
def internal : Act → Bool
  | .check _ | .post _ | .next _ | .main | .dropSig _ => true
  | .select _ ready control => ready == 0 && !control
  | .recv .. | .drop .. => false

end Verif.NetQueue
