import Verif.Json.Spec
import Verif.Json.EncModel

/-!
What encoding should produce: the calls that write a value, the values that can be
written, and the compact JSON text of a value.
-/

namespace Verif.Json

open Verif.Rep (b)

/-- The integers the JSON encoder accepts. -/
def Num (i : Int) : Prop := -4503599627370497 ≤ i ∧ i ≤ 9007199254740992

mutual
/-- Values that a program can encode and that have their own JSON text: plain
strings, integers in the accepted range, arrays with at least one element. -/
inductive Fit : Val → Prop
  | nil : Fit .nil
  | bool (x) : Fit (.bool x)
  | int (i) : Num i → Fit (.int i)
  | str (s) : Plain s → Fit (.str s)
  | bools (l) : l ≠ [] → Fit (.bools l)
  | ints (l) : l ≠ [] → (∀ i ∈ l, Num i) → Fit (.ints l)
  | strs (l) : l ≠ [] → (∀ s ∈ l, Plain s ∧ s.length ≤ 127) → Fit (.strs l)
  | obj (l) : FitM l → Fit (.obj l)
  | objs (l) : l ≠ [] → FitO l → Fit (.objs l)
/-- Members of an object. -/
inductive FitM : List (Option (List UInt8) × Val) → Prop
  | nil : FitM []
  | cons (k v l) : Plain k → Fit v → FitM l → FitM ((some k, v) :: l)
/-- Elements of an array of objects. -/
inductive FitO : List (Option (List UInt8) × Val) → Prop
  | nil : FitO []
  | cons (m l) : FitM m → FitO l → FitO ((none, .obj m) :: l)
end

/-- Texts separated by commas. -/
def commas : List (List UInt8) → List UInt8
  | [] => []
  | [t] => t
  | t :: r => t ++ 44 :: commas r

mutual
/-- `Json v t`: the compact JSON text of the value `v` is `t`. -/
inductive Json : Val → List UInt8 → Prop
  | nil : Json .nil (b "null")
  | bool (x) : Json (.bool x) (boolText x)
  | int (i) : Json (.int i) (intText i)
  | str (s) : Json (.str s) (quote s)
  | bools (l) : Json (.bools l) (91 :: commas (l.map boolText) ++ [93])
  | ints (l) : Json (.ints l) (91 :: commas (l.map intText) ++ [93])
  | strs (l) : Json (.strs l) (91 :: commas (l.map quote) ++ [93])
  | obj (l ts) : JsonM l ts → Json (.obj l) (123 :: commas ts ++ [125])
  | objs (l ts) : JsonO l ts → Json (.objs l) (91 :: commas ts ++ [93])
/-- The texts of the members of an object. -/
inductive JsonM : List (Option (List UInt8) × Val) → List (List UInt8) → Prop
  | nil : JsonM [] []
  | cons (k v t l ts) : Json v t → JsonM l ts → JsonM ((some k, v) :: l) ((quote k ++ 58 :: t) :: ts)
/-- The texts of the elements of an array of objects. -/
inductive JsonO : List (Option (List UInt8) × Val) → List (List UInt8) → Prop
  | nil : JsonO [] []
  | cons (m t l ts) : Json (.obj m) t → JsonO l ts → JsonO ((none, .obj m) :: l) (t :: ts)
end

mutual
/-- `Calls v os`: the calls by which a program writes the value `v`
(`oc_rep_set_*`, `oc_rep_add_*` and the macros for arrays and objects of
include/oc_rep.h). -/
inductive Calls : Val → List Op → Prop
  | nil : Calls .nil [.null]
  | bool (x) : Calls (.bool x) [.bool x]
  | int (i) : Calls (.int i) [.int i]
  | str (s) : Calls (.str s) [.text s]
  | bools (l) : Calls (.bools l) (.arr :: l.map .bool ++ [.close])
  | ints (l) : Calls (.ints l) (.arr :: l.map .int ++ [.close])
  | strs (l) : Calls (.strs l) (.arr :: l.map .text ++ [.close])
  | obj (l os) : CallsM l os → Calls (.obj l) (.map :: os ++ [.close])
  | objs (l os) : CallsO l os → Calls (.objs l) (.arr :: os ++ [.close])
/-- The calls for the members of an object. -/
inductive CallsM : List (Option (List UInt8) × Val) → List Op → Prop
  | nil : CallsM [] []
  | cons (k v o l os) : Calls v o → CallsM l os → CallsM ((some k, v) :: l) (.text k :: o ++ os)
/-- The calls for the elements of an array of objects. -/
inductive CallsO : List (Option (List UInt8) × Val) → List Op → Prop
  | nil : CallsO [] []
  | cons (m o l os) : Calls (.obj m) o → CallsO l os → CallsO ((none, .obj m) :: l) (o ++ os)
end

end Verif.Json
