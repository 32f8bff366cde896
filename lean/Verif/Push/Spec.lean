import Verif.Push.Model

/-!
What a user expects of notification selectors, said without the model's helpers.
-/

namespace Verif.Push.Spec

open Verif.Rep (b Bytes Val Rep)

/-- The conditions a selector states on the path and the types of a resource hold of a
resource, and it states at least one condition (on `pif`, see `Selects`). -/
def SelectsBy (phref : Option Bytes) (prt : List Bytes) (r : Rsc) (uri : Bytes) : Prop :=
  (∀ p, phref = some p → p = uri) ∧ (prt ≠ [] → ∃ t, t ∈ prt ∧ t ∈ r.types) ∧
    (phref ≠ none ∨ prt ≠ [])

/-- What `phref`, `prt` and `pif` are for: each condition stated holds of the resource,
and one is stated at least. -/
def Selects (n : Ns) (r : Rsc) (uri : Bytes) : Prop :=
  (∀ p, n.phref = some p → p = uri) ∧ (n.prt ≠ [] → ∃ t, t ∈ n.prt ∧ t ∈ r.types) ∧
    (n.pif ≠ [] → ∃ i : Ri.Iface, i.name ∈ n.pif ∧ r.ifaces &&& i.bit ≠ 0) ∧
    (n.phref ≠ none ∨ n.prt ≠ [] ∨ n.pif ≠ [])

/-- The requests of a selector that wait for a response. -/
def waiting (id : Nat) (s : St) : Nat := s.inflight.count id

end Verif.Push.Spec
