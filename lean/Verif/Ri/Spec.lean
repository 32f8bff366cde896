import Verif.Ri.Model
import Verif.Query.Spec

/-! What a server must do with a request, independently of the code. -/

namespace Verif.Ri.Spec

open Verif.Rep (Bytes b)

/-- A URI as applications write it: one slash, then not a slash. -/
def Proper (u : Bytes) : Prop := ∃ t, u = slash :: t ∧ t.head? ≠ some slash

/-- A path without its leading slashes. -/
def bare (p : Bytes) : Bytes := p.dropWhile (· == slash)

/-- The methods an interface allows (OCF Core Specification, 7.5.3). -/
def allows (i : Iface) (m : Method) : Prop :=
  match i with
  | .ll | .s | .r | .etag => m = .get
  | .w => m ≠ .get
  | .create => m ≠ .delete
  | .baseline | .b | .rw | .a | .startup | .revert => True

/-- The interface a query names: the value of its first `if` key. -/
def named (q : Bytes) : Option Bytes := (Query.Spec.lookup q (b "if")).bind Query.Spec.valueOf

/-- The interface of a request: the named one if it is known, else the default one
of the resource. -/
def chosen (q : Bytes) (dflt mask : BitVec 32) : Prop :=
  (∃ i : Iface, named q = some i.name ∧ mask = i.bit) ∨
  ((∀ i : Iface, named q ≠ some i.name) ∧ mask = dflt)

/-- The parts of a query with the key `di`. -/
def diParts (q : Bytes) : List Bytes :=
  (Query.Spec.parts q).filter fun s => Query.Spec.sameKey (b "di") (Query.Spec.keyOf s)

/-- A query selects the device: it names none or this one. -/
def selects (di q : Bytes) : Prop := diParts q = [] ∨ ∃ s ∈ diParts q, Query.Spec.valueOf s = some di

/-- Every `di` of a query has a value. -/
def DiValued (q : Bytes) : Prop := ∀ s ∈ diParts q, Query.Spec.valueOf s ≠ none

/-- The content formats a server reads: none given, CBOR, OCF CBOR, JSON, TD JSON. -/
def readable (cf : Nat) : Prop := cf ∈ [65535, 60, 10000, 50, 432]

/-- Why a request is refused before any handler runs, in the order of precedence,
as a CoAP code. `none`: it is not refused. -/
inductive Refused (e : Env) (q : Req) : Option Res → BitVec 32 → Option Nat → Prop
  | notFound (i) : Refused e q none i (some 132)
  | iface (r i) (h : ¬ ∃ j : Iface, i = j.bit ∧ r.ifaces &&& j.bit = j.bit ∧ allows j q.method) :
      Refused e q (some r) i (some 131)
  | denied (r i) (h : ∃ j : Iface, i = j.bit ∧ r.ifaces &&& j.bit = j.bit ∧ allows j q.method)
      (ha : e.acl r q.method = false) : Refused e q (some r) i (some 129)
  | format (r i) (h : ∃ j : Iface, i = j.bit ∧ r.ifaces &&& j.bit = j.bit ∧ allows j q.method)
      (ha : e.acl r q.method = true) (hc : ¬ readable q.cf) : Refused e q (some r) i (some 128)
  | method (r i) (h : ∃ j : Iface, i = j.bit ∧ r.ifaces &&& j.bit = j.bit ∧ allows j q.method)
      (ha : e.acl r q.method = true) (hc : readable q.cf) (hm : r.coll = false ∧ r.has q.method = false) :
      Refused e q (some r) i (some 133)
  | allowed (r i) (h : ∃ j : Iface, i = j.bit ∧ r.ifaces &&& j.bit = j.bit ∧ allows j q.method)
      (ha : e.acl r q.method = true) (hc : readable q.cf) (hm : r.coll = true ∨ r.has q.method = true) :
      Refused e q (some r) i none

/-- Whether the client is an observer after the effects of a request, given
whether it was one before. -/
def observes : Bool → List Eff → Bool
  | x, [] => x
  | _, .addObs _ _ :: l => observes true l
  | _, .rmObs :: l => observes false l
  | x, _ :: l => observes x l

/-- The request may run the handler of `r` with interface `i`: nothing refuses it,
a multicast one selects the device, it is not a batch request the peer cannot get,
its ETag is not the current one, the buffer of the answer can be allocated, and
the payload is readable. -/
structure Runs (e : Env) (q : Req) (r : Res) (i : BitVec 32) (payload : Bytes) : Prop where
  iface : chosen q.query r.dflt i
  allowed : Refused e q (some r) i none
  device : q.mcast = true → selects (e.di q.dev) q.query
  batch : q.method = .get → i = Iface.b.bit → e.noBatch r = false
  etag : q.method = .get → q.etag.length = 8 → e.etag r (i == Iface.b.bit) ≠ 0 →
    ¬ q.etag = (List.range 8).map fun k => UInt8.ofNat (e.etag r (i == Iface.b.bit) / 256 ^ k % 256)
  memory : e.alloc = true
  payload : payload = [] ∨ e.decode payload = .ok

/-- The encoder that produces a content format. -/
def produces : Enc → Nat → Prop
  | .cbor, f => f = 60 ∨ f = 10000
  | .json, f => f = 50 ∨ f = 432

end Verif.Ri.Spec
