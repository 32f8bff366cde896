import Verif.Separate.Model

/-! What separate responses must do, independently of the code. -/

namespace Verif.Separate.Spec

/-- All allocations succeed. -/
def plenty : Mem := ⟨true, true, true⟩

/-- Sending works: memory, and no earlier block-wise answer under way. -/
structure Good (e : Env) : Prop where
  tx : ∀ x, e.tx x = true
  busy : ∀ x, e.busy x = false
  bw : ∀ x, e.bw x = true

/-- Two requests are told apart by the handle. -/
def Distinct (a b : Req) : Prop := ¬ (a.token = b.token ∧ a.observe = b.observe)

/-- There is memory for a request: for its record and its acknowledgement, and for
the buffer if it is the first one. -/
def takes (active : Bool) (x : Req × Mem) : Bool :=
  (active || x.2.buf) && x.2.store && (!x.1.con || x.2.ack)

/-- The requests there is memory for, of those that come to a handle. -/
def taken : Bool → List (Req × Mem) → List Req
  | _, [] => []
  | a, x :: l => if takes a x then x.1 :: taken true l else taken a l

/-- The acknowledgements due. -/
def acks (l : List Req) : List Msg := (l.filter (·.con)).map fun q => .ack q.ep q.mid

/-- The answers due: to each request one, to its endpoint, with its token, the code,
and the payload or its first block. -/
def due (l : List Req) (code len : Nat) : List Msg :=
  l.map fun q => .resp q.ep q.token code none (if q.tcp then len else min len q.block2)

/-- What the application may do: write and send only while the handle is active, and
send only statuses. -/
def Allowed (s : Sys) : Ev → Prop
  | .request _ _ => True
  | .write => s.active = true
  | .send _ code _ => s.active = true ∧ code.isSome = true

/-- A history of allowed events. -/
inductive History : Sys → List Ev → Prop
  | nil (s) : History s []
  | cons (s v l) (h : Allowed s v) (r : ∀ m t, step s v = .ok (m, t) → History t l) : History s (v :: l)

/-- All allocations of an event succeed. -/
def Memory : Ev → Prop
  | .request _ m => m = plenty
  | _ => True

end Verif.Separate.Spec
