import Verif.Bytes
/-! Specification of a block pool: a partial map from addresses to the contents
of the blocks handed out. -/
namespace Verif.Memb.Spec

/-- Contents of the block handed out at an address, if there is one. -/
abbrev Live := Nat → Option (List UInt8)

/-- Interface calls, and stores by the owner of a block. -/
inductive Op where
  | alloc
  | free (ptr : Nat)
  | store (ptr off : Nat) (bs : List UInt8)

/-- Obligations of the client: only its own blocks are written. -/
def Valid (size : Nat) (m : Live) : Op → Prop
  | .store ptr off bs => m ptr ≠ none ∧ off + bs.length ≤ size
  | _ => True

/-- What a call may do, with its result.  `alloc` may fail, or return a zeroed
block at an address that is not handed out. -/
inductive Step (size : Nat) : Live → Op → Option Nat → Live → Prop
  | allocFail (m) : Step size m .alloc none m
  | allocOk (m : Live) (a : Nat) (h : m a = none) :
      Step size m .alloc (some a) (fun b => if b = a then some (List.replicate size 0) else m b)
  | free (m : Live) (a) : Step size m (.free a) none (fun b => if b = a then none else m b)
  | store (m : Live) (a off bs c) (h : m a = some c) :
      Step size m (.store a off bs) none (fun b => if b = a then some (writeAt c off bs) else m b)

end Verif.Memb.Spec
