import Verif.StrArr.Model

/-! What the theorems about arrays of strings say. -/

namespace Verif.StrArr

/-- The block holds these items, of at most 127 bytes without NUL; an empty one is a free
place. -/
def Holds (buf : Bytes) (items : List Bytes) : Prop :=
  buf.length = items.length * 128 ∧
  ∀ i it, items[i]? = some it → it.length < 128 ∧ 0 ∉ it ∧ slice buf (i * 128) (it.length + 1) = it ++ [0]

/-- Adding to a list of places: the first free one is used. -/
def place (str : Bytes) : List Bytes → Option (List Bytes)
  | [] => none
  | it :: r => if it = [] then some (str :: r) else (place str r).map (it :: ·)

/-- The items with spaces between them. -/
def joined : List Bytes → Bytes
  | [] => []
  | [a] => a
  | a :: b :: r => a ++ 32 :: joined (b :: r)

/-- The block holds these byte strings of at most 127 bytes. -/
def BHolds (buf : Bytes) (items : List Bytes) : Prop :=
  buf.length = items.length * 128 ∧
  ∀ i it, items[i]? = some it → it.length < 128 ∧ slice buf (i * 128) (it.length + 1) = UInt8.ofNat it.length :: it

end Verif.StrArr
