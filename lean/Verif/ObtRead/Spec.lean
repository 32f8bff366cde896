import Verif.ObtRead.Model

/-! What an onboarding tool should be told about a device: a small specification
that mentions the lists of the device and of the tool only. -/

namespace Verif.ObtRead.Spec

open Verif.Rep (Bytes b Val Rep)
open Verif.Acl (Id Ace Entry Subject)
open Verif.Cred (Cred)

/-- Two lists of the same length, related element by element (modelling
convention). -/
def All2 {α β : Type} (R : α → β → Prop) : List α → List β → Prop
  | [], [] => True
  | x :: l, y :: m => R x y ∧ All2 R l m
  | _, _ => False

/-- The subject is told as it is (modelling convention). -/
def SameSubject : Subject → Sub → Prop
  | .uuid u, s => s = .uuid u
  | .role r a, s => s = .role (some r) (if a = [] then none else some a)
  | .conn c, s => s = .conn c

/-- A resource is told: its name, or else its wildcard (modelling convention). -/
def SameEntry (e : Entry) (r : ROut) : Prop :=
  match e.href with
  | some h => r = ⟨some h, .no⟩
  | none => r = ⟨none, e.wc⟩

/-- An ACE is told, with all its resources in order (modelling convention). -/
structure SameAce (a : Ace) (r : RAce) : Prop where
  id : r.aceid = a.aceid
  permission : r.permission = a.permission
  subject : SameSubject a.subject r.sub
  resources : All2 SameEntry a.resources r.resources

/-- Values that the interface documents (include/oc_cred.h:55-61, 69-75). -/
def KnownUsage (u : Nat) : Prop := u = 0 ∨ u = 2 ∨ u = 4 ∨ u = 8 ∨ u = 16 ∨ u = 32

/-- A credential that can be told: 32-bit numbers, a usage that is documented, and a
subject that is the wildcard or does not start with its character (modelling
convention). -/
structure Tellable (c : Cred) : Prop where
  id : Sec.toInt32 c.id = c.id
  typ : Sec.toInt32 c.typ = c.typ
  usage : KnownUsage c.usage
  pubEnc : c.pub.enc ≤ 4
  subject : c.subject.length = 16 ∧ (c.subject.headD 0 = 42 → c.subject = 42 :: List.replicate 15 0)

/-- A credential is told: everything but the private data, and the role of a
pre-shared key only (modelling convention). -/
structure SameCred (c : Cred) (r : RCred) : Prop where
  id : r.id = c.id
  typ : r.typ = c.typ
  usage : r.usage = c.usage
  subject : r.subject = c.subject
  secret : r.priv.bytes = []
  pub : c.pub.bytes ≠ [] → r.pub = c.pub
  noPub : c.pub.bytes = [] → r.pub.bytes = []
  role : r.role = if c.typ = 1 ∧ c.role ≠ [] then some c.role else none
  authority : r.authority = if c.typ = 1 ∧ c.role ≠ [] ∧ c.authority ≠ [] then some c.authority else none

end Verif.ObtRead.Spec
