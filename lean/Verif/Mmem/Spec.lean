import Verif.Bytes
/-! Specification of a compacting pool: a partial map from handles to contents.
Addresses are not part of it, as they may change with every call. -/
namespace Verif.Mmem.Spec

/-- Contents of the block of a handle. -/
abbrev Live (α : Type) := Nat → Option (List α)

/-- Interface calls and stores by owners. -/
inductive Op (α : Type) where
  | alloc (id size : Nat)
  | free (id : Nat)
  | store (id off : Nat) (xs : List α)

/-- Obligations of the client. -/
def Valid {α : Type} (m : Live α) : Op α → Prop
  | .alloc id _ => m id = none
  | .free id => m id ≠ none
  | .store id off xs => ∃ c, m id = some c ∧ off + xs.length ≤ c.length

/-- Effect of a call on a pool with `avail` free elements; the result says whether
the allocation succeeded.  Allocation fails exactly when the free space is
insufficient (no fragmentation); new contents are unspecified. -/
inductive Step {α : Type} : Live α × Nat → Op α → Bool → Live α × Nat → Prop
  | allocFail (m avail id size) (h : avail < size) :
      Step (m, avail) (.alloc id size) false (m, avail)
  | allocOk (m avail id size c) (h : size ≤ avail) (hc : c.length = size) :
      Step (m, avail) (.alloc id size) true
        (fun j => if j = id then some c else m j, avail - size)
  | free (m : Live α) (avail id c) (h : m id = some c) :
      Step (m, avail) (.free id) true (fun j => if j = id then none else m j, avail + c.length)
  | store (m : Live α) (avail id off xs c) (h : m id = some c) :
      Step (m, avail) (.store id off xs) true
        (fun j => if j = id then some (writeAt c off xs) else m j, avail)

end Verif.Mmem.Spec
