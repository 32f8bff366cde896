import Verif.Trans.Model

/-! Specification of retransmission (C20). -/

namespace Verif.Trans.Spec

open Verif.Trans

/-- The times at which the message of a transaction was transmitted. -/
def times (log : List Eff) (id : Nat) : List Nat :=
  log.filterMap fun
    | .sent i t => if i = id then some t else none
    | _ => none

/-- Successive transmissions are at least `i`, `2 i`, `4 i`, ... apart. -/
def Backoff : Nat → List Nat → Prop
  | i, a :: b :: r => a + i ≤ b ∧ Backoff (i * 2) (b :: r)
  | _, _ => True

/-- A transmission history that the protocol allows: at most four transmissions,
with a first interval between two and three seconds that doubles. -/
def Allowed (sec : Nat) (ts : List Nat) : Prop :=
  ts.length ≤ 4 ∧ ∃ i, 2 * sec ≤ i ∧ i ≤ 3 * sec ∧ Backoff i ts

/-- The identities of the open transactions. -/
def ids (l : List Tx) : List Nat := l.map Tx.id

end Verif.Trans.Spec
