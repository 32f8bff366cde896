import Verif.Swu.Model

/-!
Specification of the software update resource.
-/

namespace Verif.Swu.Spec

open Verif.Rep (b Bytes Val Rep)
open Verif.Swu

/-- The last string with a name in a representation. -/
def last (name : Bytes) : Rep → Option Bytes
  | [] => none
  | (n, v) :: ps =>
    match last name ps with
    | some s => some s
    | none =>
      match v with
      | .str s => if n = name then some s else none
      | _ => none

/-- The names of the actions. -/
def actions : List (Bytes × Action) :=
  [(b "idle", .idle), (b "isac", .isac), (b "isvv", .isvv), (b "upgrade", .upgrade)]

/-- What a property `updatetime` may say, and the time meant; `none` cancels. -/
inductive TimeIs (ts : Bytes → Option Nat) (now : Nat) : Bytes → Nat → Prop where
  | none : TimeIs ts now (b "none") 0
  | now : TimeIs ts now (b "now") now
  | time (s : Bytes) (t : Nat) : s ≠ b "none" → s ≠ b "now" → ts s = some t → TimeIs ts now s t

/-- A property that a client may send. -/
inductive Good (ts : Bytes → Option Nat) : Bytes × Val → Prop where
  | action (s : Bytes) (a : Action) : (s, a) ∈ actions → Good ts (b "swupdateaction", .str s)
  | purl (s : Bytes) : Good ts (b "purl", .str s)
  | time (s : Bytes) (now t : Nat) : TimeIs ts now s t → Good ts (b "updatetime", .str s)

/-- A request is acceptable: it has only properties that a client may send, a time not
in the past, and a URL that the application accepts; the URL may be empty if the
device has one and an action is demanded. -/
structure Accepts (ts : Bytes → Option Nat) (validate : Option (Bytes → Bool)) (now : Nat) (hasPurl : Bool)
    (rep : Rep) : Prop where
  good : ∀ p ∈ rep, Good ts p
  time : ∃ s, last (b "updatetime") rep = some s ∧
    (s = b "none" ∨ s = b "now" ∨ ∃ t, ts s = some t ∧ now ≤ t)
  purl : ∃ u, last (b "purl") rep = some u ∧
    ((∃ f, validate = some f ∧ f (cstr u) = true) ∨
     (cstr u = [] ∧ hasPurl = true ∧ ∃ x, last (b "swupdateaction") rep = some x ∧ x ≠ b "idle"))

/-- The resource after an acceptable request. -/
structure Updated (ts : Bytes → Option Nat) (now : Nat) (rep : Rep) (old new : Swu) : Prop where
  purl : new.purl = last (b "purl") rep
  action : ∀ x, last (b "swupdateaction") rep = some x → (x, new.action) ∈ actions
  noAction : last (b "swupdateaction") rep = none → new.action = old.action
  time : ∀ x, last (b "updatetime") rep = some x → TimeIs ts now x new.time
  rest : new.nv = old.nv ∧ new.signage = old.signage ∧ new.state = old.state ∧ new.result = old.result ∧
    new.last = old.last

end Verif.Swu.Spec
