import Verif.Collection.Model

/-!
What the theorems about collections say, independently of how the code does it.
-/

namespace Verif.Collection

open Verif.Rep (Bytes)
open Verif.Ri (Method Iface)

/-- The first different byte is smaller. -/
def LexLess (u v : Bytes) : Prop :=
  ∃ p x y r s, u = p ++ x :: r ∧ v = p ++ y :: s ∧ x.toNat < y.toNat

/-- The order of the links a client sees: shorter URIs first, then by value. -/
def Before (u v : Bytes) : Prop := u.length < v.length ∨ (u.length = v.length ∧ LexLess u v)

/-- The links are in that order, links with equal URIs in the order in which they were
added. -/
def Ordered (ls : List Link) : Prop :=
  ls.Pairwise fun a c => Before a.uri c.uri ∨ (a.uri = c.uri ∧ a.seq < c.seq)

/-- The links a collection should have after these calls, in the order of adding. -/
def content : Nat → List Link → List Op → List Link
  | _, ls, [] => ls
  | n, ls, .add id res uri :: r => content (n + 1) (if uri = [] then ls else ls ++ [⟨id, res, uri, n⟩]) r
  | n, ls, .remove id :: r => content (n + 1) (ls.filter fun l => l.id != id) r

/-- No link is added that is already there. -/
def NoTwice : Nat → List Link → List Op → Prop
  | _, _, [] => True
  | n, ls, .add id res uri :: r =>
    (∀ l ∈ ls, l.id ≠ id) ∧ NoTwice (n + 1) (if uri = [] then ls else ls ++ [⟨id, res, uri, n⟩]) r
  | n, ls, .remove id :: r => NoTwice (n + 1) (ls.filter fun l => l.id != id) r

/-- Two paths are the same but for leading slashes. -/
def SamePath (p q : Bytes) : Prop :=
  ∃ i j t, p = List.replicate i 47 ++ t ∧ q = List.replicate j 47 ++ t ∧ t.head? ≠ some 47

/-- The handlers that were called. -/
def calls : Log → List (Nat × Method × Option Nat × BitVec 32 × Nat)
  | [] => []
  | .call r m p i c :: l => (r, m, p, i, c) :: calls l
  | _ :: l => calls l

/-- What happens for one link to a resource that is not another collection. -/
inductive LinkEv (env : Env) (q : Req) (col : Nat) (payload : Option Nat) (log : Log) (r : Nat) : Ev → Prop where
  | denied : env.origin = true → env.acl log q.method r = false → LinkEv env q col payload log r (.denied r)
  | none : ¬ (env.origin = true ∧ env.acl log q.method r = false) → (env.world r).has q.method = false →
      LinkEv env q col payload log r (.noHandler r)
  | call : ¬ (env.origin = true ∧ env.acl log q.method r = false) → (env.world r).has q.method = true →
      LinkEv env q col payload log r
        (.call r q.method payload (if r = col then Iface.baseline.bit else (env.world r).dflt)
          (env.code log r q.method payload))

/-- For each of these links, in order, exactly one event. -/
inductive Visits (env : Env) (q : Req) (col : Nat) (payload : Option Nat) : Log → List Nat → Log → Prop where
  | nil (log) : Visits env q col payload log [] log
  | cons (log r l log' e) : LinkEv env q col payload log r e →
      Visits env q col payload (log ++ [e]) l log' → Visits env q col payload log (r :: l) log'

/-- The resource passes the filter of the query. -/
def Wanted (rts types : List Bytes) : Prop := rts = [] ∨ ∃ t ∈ types, t ∈ rts

/-- The event is a call whose handler answered with success. -/
def good : Ev → Bool
  | .call _ _ _ _ c => decide (c < c400)
  | _ => false

/-- A well-formed element of a payload: a string for the link and an object. -/
structure Item where
  href : Bytes
  rep : Nat

/-- The element with the link and the object in this order. -/
def Item.elem (i : Item) : Elem := .obj [.str i.href, .obj i.rep]

/-- For each item, the links with its URI are visited with its own payload. -/
inductive ItemVisits (env : Env) (q : Req) (col : Nat) (sel : Item → List Nat) : Log → List Item → Log → Prop where
  | nil (log) : ItemVisits env q col sel log [] log
  | cons (log mid log' i l) : Visits env q col (some i.rep) log (sel i) mid →
      ItemVisits env q col sel mid l log' → ItemVisits env q col sel log (i :: l) log'

/-- What must hold when something happens with this log before it: a handler is only called
for the method of the request, if it exists, for a resource that some collection links,
if access control permits it, with the default interface of the resource or with
baseline. -/
def Legit (env : Env) (q : Req) (log : Log) : Ev → Prop
  | .call r m p i c => m = q.method ∧ (env.world r).has m = true ∧ (env.origin = true → env.acl log m r = true) ∧
      (∃ col, r ∈ (env.world col).links) ∧ (i = (env.world r).dflt ∨ i = Iface.baseline.bit) ∧ c = env.code log r m p
  | _ => True

/-- Everything that was added to the log was legitimate at its time. -/
def AllLegit (env : Env) (q : Req) (log log' : Log) : Prop :=
  ∃ new, log' = log ++ new ∧ ∀ pre e post, new = pre ++ e :: post → Legit env q (log ++ pre) e

/-- No link of the collection leads to another collection. -/
def Flat (w : Nat → Res) (col : Nat) : Prop := ∀ r ∈ (w col).links, r = col ∨ (w r).coll = false

end Verif.Collection
