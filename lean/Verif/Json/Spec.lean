import Verif.Json.Model
import Verif.Dec

/-!
What a JSON text means, independently of the decoder: the grammar of RFC 8259
(restricted to integers and to strings taken literally) with the value each text
denotes.
-/

namespace Verif.Json

open Verif.Rep (b)

/-- White space of RFC 8259 §2. -/
def Ws (w : List UInt8) : Prop := ∀ c ∈ w, c = 9 ∨ c = 10 ∨ c = 13 ∨ c = 32

/-- The decimal text of an integer. -/
def intText (i : Int) : List UInt8 :=
  if i < 0 then 45 :: dec i.natAbs else dec i.natAbs

/-- The integers `int64_t` holds. -/
def I64 (i : Int) : Prop := -9223372036854775808 ≤ i ∧ i ≤ 9223372036854775807

/-- Strings that need no escape sequence: no quote, backslash or zero byte.  (The
decoder keeps escape sequences as they are written, see `escape_false`.) -/
def Plain (s : List UInt8) : Prop := ∀ c ∈ s, c ≠ 34 ∧ c ≠ 92 ∧ c ≠ 0

/-- A quoted string. -/
def quote (s : List UInt8) : List UInt8 := 34 :: s ++ [34]

/-- `true` or `false`. -/
def boolText (x : Bool) : List UInt8 := if x then b "true" else b "false"

/-- `P`-texts separated by commas with white space around them, at least one. -/
inductive Sep {α : Type} (P : List UInt8 → α → Prop) : List UInt8 → List α → Prop
  | one (w t w' a) : Ws w → P t a → Ws w' → Sep P (w ++ t ++ w') [a]
  | cons (w t w' a rest l) : Ws w → P t a → Ws w' → Sep P rest l →
      Sep P (w ++ t ++ w' ++ 44 :: rest) (a :: l)

/-- Texts of array elements that are no objects. -/
def BoolT (t : List UInt8) (x : Bool) : Prop := t = boolText x
/-- The text of an integer in the range of `int64_t`. -/
def IntT (t : List UInt8) (i : Int) : Prop := t = intText i ∧ I64 i
/-- The text of a string that fits into an item of a string array. -/
def StrT (t : List UInt8) (s : List UInt8) : Prop := t = quote s ∧ Plain s ∧ s.length ≤ 127

mutual
/-- `Txt t v`: the JSON text `t` denotes the value `v`.  Arrays have elements of one
type (as `oc_rep_t` has); the empty array is read as `nil`. -/
inductive Txt : List UInt8 → Val → Prop
  | null : Txt (b "null") .nil
  | bool (x) : Txt (boolText x) (.bool x)
  | int (i) : I64 i → Txt (intText i) (.int i)
  | str (s) : Plain s → Txt (quote s) (.str s)
  | empty (w) : Ws w → Txt (91 :: w ++ [93]) .nil
  | bools (t l) : Sep BoolT t l → Txt (91 :: t ++ [93]) (.bools l)
  | ints (t l) : Sep IntT t l → Txt (91 :: t ++ [93]) (.ints l)
  | strs (t l) : Sep StrT t l → Txt (91 :: t ++ [93]) (.strs l)
  | obj (t l) : Members t l → Txt (123 :: t ++ [125]) (.obj l)
  | objs (t l) : Objects t l → Txt (91 :: t ++ [93]) (.objs l)
/-- The text between the braces of an object and its members, in order. -/
inductive Members : List UInt8 → List (Option (List UInt8) × Val) → Prop
  | none (w) : Ws w → Members w []
  | some (t l) : Members1 t l → Members t l
/-- At least one member. -/
inductive Members1 : List UInt8 → List (Option (List UInt8) × Val) → Prop
  | one (w k w1 w2 t v w3) : Ws w → Plain k → Ws w1 → Ws w2 → Txt t v → Ws w3 →
      Members1 (w ++ quote k ++ w1 ++ 58 :: w2 ++ t ++ w3) [(some k, v)]
  | cons (w k w1 w2 t v w3 rest l) : Ws w → Plain k → Ws w1 → Ws w2 → Txt t v → Ws w3 →
      Members1 rest l →
      Members1 (w ++ quote k ++ w1 ++ 58 :: w2 ++ t ++ w3 ++ 44 :: rest) ((some k, v) :: l)
/-- The text between the brackets of a nonempty array of objects. -/
inductive Objects : List UInt8 → List (Option (List UInt8) × Val) → Prop
  | one (w t l w') : Ws w → Members t l → Ws w' →
      Objects (w ++ 123 :: t ++ 125 :: w') [(none, .obj l)]
  | cons (w t l w' rest ls) : Ws w → Members t l → Ws w' → Objects rest ls →
      Objects (w ++ 123 :: t ++ 125 :: w' ++ 44 :: rest) ((none, .obj l) :: ls)
end

end Verif.Json
