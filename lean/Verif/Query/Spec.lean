/-! What a query means, independently of the code. -/

namespace Verif.Query.Spec

/-- The parts between '&' (38). -/
def parts : List UInt8 → List (List UInt8)
  | [] => [[]]
  | c :: r =>
    if c = 38 then [] :: parts r
    else match parts r with
      | [] => [[c]]
      | s :: t => (c :: s) :: t

/-- The key of a part: everything before the first '=' (61). -/
def keyOf (s : List UInt8) : List UInt8 := s.takeWhile (· != 61)

/-- The value of a part: everything after the first '=', if there is one. -/
def valueOf (s : List UInt8) : Option (List UInt8) :=
  match s.dropWhile (· != 61) with
  | [] => none
  | _ :: v => some v

/-- Lower case of ASCII. -/
def low (c : UInt8) : UInt8 := if 65 ≤ c ∧ c ≤ 90 then c + 32 else c

/-- Equality of keys ignoring case. -/
def sameKey (a b : List UInt8) : Bool := a.map low == b.map low

/-- The first part with the key. -/
def lookup (q key : List UInt8) : Option (List UInt8) :=
  (parts q).find? fun s => sameKey key (keyOf s)

/-- A query made from pairs: `k=v` joined by '&'. -/
def build : List (List UInt8 × List UInt8) → List UInt8
  | [] => []
  | [(k, v)] => k ++ 61 :: v
  | (k, v) :: r => k ++ 61 :: v ++ 38 :: build r

end Verif.Query.Spec
