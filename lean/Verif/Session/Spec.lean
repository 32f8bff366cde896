import Verif.Session.Model

/-! What session events must do, independently of the code. -/

namespace Verif.Session.Spec

/-- The sessions of the events of one kind, in order. -/
def ofKind (k : Kind) (l : List (Kind × Nat)) : List Nat := (l.filter (·.1 == k)).map (·.2)

/-- A step of a thread that has something to finish, or of the main loop: no new
event, nothing from outside. -/
def internal : Act → Bool
  | .push _ | .need | .req | .main | .timer => true
  | _ => false

/-- Nothing is left to do. -/
def quiet (s : St) : Prop := ∀ a, internal a = true → step s a = none

/-- No event is delivered before one that must come first: of each session the
connection before the disconnection. -/
def ordered (l : List (Kind × Nat)) : Prop :=
  ∀ id a b, l = a ++ (Kind.disconnected, id) :: b → (Kind.connected, id) ∉ b

/-- A handler that does not remove callbacks of itself. -/
def Polite (beh : Nat → List Op) : Prop :=
  ∀ h op, op ∈ beh h → ∀ v1 d ig, op ≠ .remove v1 h d ig

end Verif.Session.Spec
