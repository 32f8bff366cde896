import Verif.Factory.Model
import Verif.Collection.Spec
import Verif.Acl.Spec

/-!
What the theorems about created resources say, independently of how the code does it.
-/

namespace Verif.Factory.Spec

open Verif.Rep (Bytes b Val Rep)
open Verif.Ri (Iface)
open Verif.Collection (Link)

/-- The URI of the member with this number. -/
def name (coll : Bytes) (n : Nat) : Bytes := coll ++ 47 :: dec n

/-- A white space character of C. -/
def Space (c : UInt8) : Prop := c.toNat = 32 ∨ (9 ≤ c.toNat ∧ c.toNat ≤ 13)

/-- A text that C reads as a decimal number: spaces, a sign, digits. -/
def NumberLike (s : Bytes) : Prop :=
  ∃ sp sg ds, s = sp ++ (sg ++ ds) ∧ (∀ c ∈ sp, Space c) ∧ (sg = [] ∨ sg = [43] ∨ sg = [45]) ∧ ds ≠ [] ∧
    ∀ c ∈ ds, IsDigit c

/-- If the last part of a URI below the collection can be read as a number, it is a number
from 1 written in the usual way. -/
def Tidy (coll u : Bytes) : Prop := ∀ s, u = coll ++ 47 :: s → NumberLike s → ∃ n, 1 ≤ n ∧ s = dec n

/-- The URI is not that of a numbered member. -/
def Apart (coll u : Bytes) : Prop := ∀ s, u = coll ++ 47 :: s → ¬ NumberLike s

/-- The lowest number whose URI is not among these. -/
def Lowest (coll : Bytes) (used : List Bytes) (n : Nat) : Prop :=
  1 ≤ n ∧ name coll n ∉ used ∧ ∀ j, 1 ≤ j → j < n → name coll j ∈ used

/-- A path with one leading slash and something behind it. -/
def Path (u : Bytes) : Prop := ∃ c t, u = 47 :: c :: t ∧ c ≠ 47

/-! ### The request -/

/-- The property is the array `rt`. -/
def typesOf (x : Bytes × Val) : Option (List Bytes) :=
  match x.2 with
  | .strs l => if x.1 = b "rt" then some l else none
  | _ => none

/-- The types a request asks for: those of the last array `rt`. -/
def types (rep : Rep) : Option (List Bytes) := (rep.filterMap typesOf).getLast?

/-- The request names an interface in some array that is not `rt`. -/
def Names (rep : Rep) (i : Iface) : Prop := ∃ x ∈ rep, x.1 ≠ b "rt" ∧ ∃ l, x.2 = .strs l ∧ i.name ∈ l

/-- The property is the object `rep`. -/
def bodyOf (x : Bytes × Val) : Option Rep :=
  match x.2 with
  | .obj o => if x.1 = b "rep" then some o else none
  | _ => none

/-- The representation a request gives: the last object `rep`. -/
def body (rep : Rep) : Option Rep := (rep.filterMap bodyOf).getLast?

/-- The property is a string. -/
def stringOf (x : Bytes × Val) : Option (Bytes × Bytes) :=
  match x.2 with
  | .str s => some (x.1, s)
  | _ => none

/-- The link parameters a request gives: its strings. -/
def strings (rep : Rep) : List (Bytes × Bytes) := rep.filterMap stringOf

/-- A request that is carried out: it gives types, the first of which the collection
knows and a factory makes, an interface, a representation that the new resource accepts;
and the factory makes a complete resource. -/
def Accepted (c : Coll) (q : Req) : Prop :=
  (∃ rt, types q.rep = some rt ∧ (rt.headD [] ∈ c.supported ∨ rt.headD [] ∈ c.mandatory) ∧
    ∃ f ∈ c.factories, f.1 = rt.headD []) ∧
  (∃ i, Names q.rep i) ∧ (∃ o, body q.rep = some o ∧ o ≠ [] ∧ q.accepts o = true) ∧ q.inst = true ∧ q.cbs = true

/-! ### Histories -/

/-- A collection whose URI is a path, with `k` digits of room for numbers, and other
resources elsewhere. -/
structure Fits (c : Coll) (k : Nat) : Prop where
  path : Path c.uri
  room : c.uri.length + k + 2 ≤ 64
  digits : k ≤ 9
  others : ∀ u ∈ c.others, Apart c.uri u

/-- The application gives its own resources paths that are not those of numbered
members. -/
def Proper (c : Coll) : Op → Prop
  | .app uri _ => Path uri ∧ Apart c.uri uri
  | _ => True

end Verif.Factory.Spec
