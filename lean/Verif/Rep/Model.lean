import Verif.Common

/-!
Model of representations (include/oc_rep.h `oc_rep_t`) and of the typed getters of
api/oc_rep.c.  A representation is the list of its properties; the pointers into
the union are modelled by the values they point to.
-/

namespace Verif.Rep

abbrev Bytes := List UInt8

/-- ASCII text (modelling convention). -/
def b (s : String) : Bytes := s.toList.map fun c => UInt8.ofNat c.toNat

/-- include/oc_rep.h:1178-1191 `oc_rep_value_type_t`. -/
inductive Ty where
  | nil | int | dbl | bool | bytes | str | obj | arr | ints | dbls | bools | bytess | strs | objs
  deriving DecidableEq

/-- include/oc_rep.h `oc_rep_value_type_t` with `union oc_rep_value`. Doubles are
given by their bits. An object is the list of its properties (name and value); an
array of objects is the list of the objects. `arr` is the type of an array without
elements, for which the union holds nothing. -/
inductive Val where
  | nil
  | int (i : Int)
  | dbl (v : BitVec 64)
  | bool (v : Bool)
  | bytes (v : Bytes)
  | str (v : Bytes)
  | obj (l : List (Bytes × Val))
  | arr
  | ints (l : List Int)
  | dbls (l : List (BitVec 64))
  | bools (l : List Bool)
  | bytess (l : List Bytes)
  | strs (l : List Bytes)
  | objs (l : List (List (Bytes × Val)))

/-- `oc_rep_t`: the list of properties. -/
abbrev Rep := List (Bytes × Val)

/-- `rep->type`. -/
def Val.ty : Val → Ty
  | .nil => .nil
  | .int _ => .int
  | .dbl _ => .dbl
  | .bool _ => .bool
  | .bytes _ => .bytes
  | .str _ => .str
  | .obj _ => .obj
  | .arr => .arr
  | .ints _ => .ints
  | .dbls _ => .dbls
  | .bools _ => .bools
  | .bytess _ => .bytess
  | .strs _ => .strs
  | .objs _ => .objs

/-- api/oc_rep.c:149-170 `oc_rep_get_by_type_and_key`; `OC_MAX_STRING_LENGTH` is
4096 (util/oc_secure_string_internal.h:33). -/
def getByTypeAndKey (rep : Rep) (type : Ty) (key : Bytes) : Option (Bytes × Val) :=
  if key.length = 0 ∨ key.length ≥ 4096 then none
  else loop rep
where
  /-- :159-168. -/
  loop : Rep → Option (Bytes × Val)
    | [] => none
    | v :: r => if v.2.ty ≠ type then loop r else if v.1 = key then some v else loop r

/-- api/oc_rep.c:172-241 `oc_rep_get_value`: the node whose union is read
according to its own type; there is no case for `OC_REP_ARRAY`. The caller's
pointers are not null. -/
def getValue (rep : Rep) (type : Ty) (key : Bytes) : Option Val :=
  match getByTypeAndKey rep type key with
  | none => none
  | some v => if v.2.ty = .arr then none else some v.2

/-- The key of the getters: `oc_strnlen_s(key, OC_MAX_STRING_LENGTH)` bytes of a C
string (the list up to its first NUL). -/
def cKey (key : Bytes) : Bytes := (key.takeWhile (· != 0)).take 4096

/-- api/oc_rep.c:243-400: the typed getters. Each stores what `oc_rep_get_value`
wrote for the type of the node into a variable of the getter's own type (`read`);
a value of another type would be reinterpreted, which is undefined. -/
def get {α : Type} (read : Val → Option α) (type : Ty) (rep : Rep) (key : Bytes) : Out (Option α) :=
  match getValue rep type (cKey key) with
  | none => .ok none
  | some v =>
    match read v with
    | some a => .ok (some a)
    | none => .ub

/-- Reading the union (include/oc_rep.h `oc_rep_value`). -/
def Val.asNil : Val → Option Bool | .nil => some true | _ => none
/-- Reading the union. -/
def Val.asInt : Val → Option Int | .int i => some i | _ => none
/-- Reading the union. -/
def Val.asBool : Val → Option Bool | .bool v => some v | _ => none
/-- Reading the union. -/
def Val.asDbl : Val → Option (BitVec 64) | .dbl v => some v | _ => none
/-- Reading the union. -/
def Val.asBytes : Val → Option Bytes | .bytes v => some v | _ => none
/-- Reading the union. -/
def Val.asStr : Val → Option Bytes | .str v => some v | _ => none
/-- Reading the union. -/
def Val.asInts : Val → Option (List Int) | .ints v => some v | _ => none
/-- Reading the union. -/
def Val.asBools : Val → Option (List Bool) | .bools v => some v | _ => none
/-- Reading the union. -/
def Val.asDbls : Val → Option (List (BitVec 64)) | .dbls v => some v | _ => none
/-- Reading the union. -/
def Val.asBytess : Val → Option (List Bytes) | .bytess v => some v | _ => none
/-- Reading the union. -/
def Val.asStrs : Val → Option (List Bytes) | .strs v => some v | _ => none
/-- Reading the union. -/
def Val.asObj : Val → Option Rep | .obj v => some v | _ => none
/-- Reading the union. -/
def Val.asObjs : Val → Option (List Rep) | .objs v => some v | _ => none

/-- api/oc_rep.c:243-253 `oc_rep_is_null`. -/
def isNull := get Val.asNil .nil
/-- api/oc_rep.c:255-265 `oc_rep_get_int`. -/
def getInt := get Val.asInt .int
/-- api/oc_rep.c:267-277 `oc_rep_get_bool`. -/
def getBool := get Val.asBool .bool
/-- api/oc_rep.c:279-289 `oc_rep_get_double`. -/
def getDouble := get Val.asDbl .dbl
/-- api/oc_rep.c:291-302 `oc_rep_get_byte_string`. -/
def getByteString := get Val.asBytes .bytes
/-- api/oc_rep.c:304-319 `oc_rep_get_string`. -/
def getString := get Val.asStr .str
/-- api/oc_rep.c:321-332 `oc_rep_get_int_array`. -/
def getIntArray := get Val.asInts .ints
/-- api/oc_rep.c:334-345 `oc_rep_get_bool_array`. -/
def getBoolArray := get Val.asBools .bools
/-- api/oc_rep.c:347-358 `oc_rep_get_double_array`. -/
def getDoubleArray := get Val.asDbls .dbls
/-- api/oc_rep.c:360-371 `oc_rep_get_byte_string_array`. -/
def getByteStringArray := get Val.asBytess .bytess
/-- api/oc_rep.c:373-384 `oc_rep_get_string_array`. -/
def getStringArray := get Val.asStrs .strs
/-- api/oc_rep.c:386-392 `oc_rep_get_object`. -/
def getObject := get Val.asObj .obj
/-- api/oc_rep.c:394-400 `oc_rep_get_object_array`. -/
def getObjectArray := get Val.asObjs .objs

end Verif.Rep
