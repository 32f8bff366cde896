/-! Specification of the list of `util/oc_list.c`: a finite sequence of distinct
items, with the obvious operations. -/
namespace Verif.OcList.Spec

/-- The calls of the list interface. -/
inductive Op where
  | add (i : Nat)
  | push (i : Nat)
  | insert (prev : Option Nat) (i : Nat)
  | pop
  | chop
  | remove (i : Nat)
  deriving Repr, DecidableEq

/-- Put `i` behind `p`. -/
def insertAfter (p i : Nat) : List Nat → List Nat
  | [] => []
  | a :: r => if a = p then a :: i :: r else a :: insertAfter p i r

/-- The caller's obligations: an item that is added is not a member yet, the item
to insert behind is a member. -/
def Valid (l : List Nat) : Op → Prop
  | .add i | .push i => i ∉ l
  | .insert none i => i ∉ l
  | .insert (some p) i => i ∉ l ∧ p ∈ l
  | .pop | .chop | .remove _ => True

/-- Effect on the sequence. -/
def step (l : List Nat) : Op → List Nat
  | .add i => l ++ [i]
  | .push i => i :: l
  | .insert none i => i :: l
  | .insert (some p) i => insertAfter p i l
  | .pop => l.tail
  | .chop => l.dropLast
  | .remove i => l.filter (· ≠ i)

/-- Item returned by the call, if any. -/
def result (l : List Nat) : Op → Option Nat
  | .pop => l.head?
  | .chop => l.getLast?
  | .remove i => if i ∈ l then some i else none
  | _ => none

/-- The obligations hold along a whole history. -/
def ValidAll : List Nat → List Op → Prop
  | _, [] => True
  | l, o :: r => Valid l o ∧ ValidAll (step l o) r

end Verif.OcList.Spec
