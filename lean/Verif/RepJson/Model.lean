import Verif.Bytes
import Verif.Base64.Props

/-!
Model of api/oc_rep_to_json.c: dumping a representation as JSON text into a buffer.

The sequence of prints does not depend on the buffer; it is modelled as a program
`Prog` that the second half of this file runs on a buffer.  A piece of text is
shorter than `INT_MAX` (what `snprintf` returns).  Names do not contain NUL bytes
(otherwise the look-up of an array by its own name, :227-305, may find another
one).
-/

namespace Verif.RepJson

/-- ASCII text (modelling convention). -/
def b (s : String) : List UInt8 := s.toList.map fun c => UInt8.ofNat c.toNat

/-- A C string argument of `%s`: up to the first NUL. -/
def cstr (s : List UInt8) : List UInt8 := s.takeWhile (· != 0)

/-- Values other than objects and arrays of objects, include/oc_rep.h
`oc_rep_value_type_t`, `oc_rep_value`. Doubles are given by the text that `%f`
prints. `other` is a type the code has no case for (:395). -/
inductive Leaf where
  | nil
  | int (i : Int)
  | dbl (t : List UInt8)
  | bool (v : Bool)
  | bytes (v : List UInt8)
  | str (s : List UInt8)
  | ints (l : List Int)
  | dbls (l : List (List UInt8))
  | bools (l : List Bool)
  | bytess (l : List (List UInt8))
  | strs (l : List (List UInt8))
  | other

/-- `oc_rep_t`: a linked list of named values. The items of an array of objects
are a list of which only the object and `next` are read. -/
inductive Rep where
  | done
  | leaf (name : List UInt8) (v : Leaf) (next : Rep)
  | obj (name : List UInt8) (child next : Rep)
  | objArr (name : List UInt8) (items next : Rep)

/-- What is printed. `call` is a nested call that returns its own total; `fault`
is the access to a null pointer. -/
inductive Prog where
  | skip
  | txt (t : List UInt8)
  | tab (d : Nat)
  | b64 (v : List UInt8)
  | call (p : Prog)
  | seq (p q : Prog)
  | fault

instance : Append Prog := ⟨.seq⟩

/-- `if (pretty_print) ...`. -/
def Prog.when (c : Bool) (p : Prog) : Prog := if c then p else .skip

/-- Either text, `pretty_print ? ... : ...`. -/
def pick (pretty : Bool) (x y : String) : Prog := .txt (b (if pretty then x else y))

/-- oc_rep_to_json.c:229-237, 249-257, 269-278: elements separated by ", ". -/
def sepLoop (pretty : Bool) : List (List UInt8) → Prog
  | [] => .skip
  | [x] => .txt x
  | x :: r => .txt x ++ pick pretty ", " "," ++ sepLoop pretty r

/-- oc_rep_to_json.c:291-312, 329-347: elements on lines of their own. -/
def lineLoop (pretty : Bool) (d : Nat) : List Prog → Prog
  | [] => .skip
  | [x] => .when pretty (.tab (d + 2)) ++ x ++ .when pretty (.txt (b "\n"))
  | x :: r => .when pretty (.tab (d + 2)) ++ x ++ pick pretty ",\n" "," ++ lineLoop pretty d r

/-- api/oc_rep.c:149-170: a value is found under its own name unless the name is
empty or too long (`OC_MAX_STRING_LENGTH`, util/oc_secure_string_internal.h:33). -/
def findable (name : List UInt8) : Bool := 0 < name.length && decide (name.length < 4096)

/-- Text of a truth value. -/
def boolText (v : Bool) : List UInt8 := b (if v then "true" else "false")

/-- A quoted C string, `"\"%s\""`. -/
def quote (s : List UInt8) : List UInt8 := b "\"" ++ cstr s ++ b "\""

/-- oc_rep_to_json.c:164-206, 222-355: the value; elements of an array that cannot
be looked up by name are not printed. -/
def leafProg (pretty : Bool) (d : Nat) (name : List UInt8) : Leaf → Prog
  | .nil => .txt (b "null")
  | .int i => .txt (b (toString i))
  | .dbl t => .txt t
  | .bool v => .txt (boolText v)
  | .bytes v => if findable name then .call (.b64 v) else .skip
  | .str s => .txt (quote s)
  | .ints l => .txt (b "[") ++
      (if findable name then sepLoop pretty (l.map fun i => b (toString i)) else .skip) ++ .txt (b "]")
  | .dbls l => .txt (b "[") ++ (if findable name then sepLoop pretty l else .skip) ++ .txt (b "]")
  | .bools l => .txt (b "[") ++
      (if findable name then sepLoop pretty (l.map boolText) else .skip) ++ .txt (b "]")
  | .bytess l => pick pretty "[\n" "[" ++
      (if findable name then lineLoop pretty d (l.map fun v => .call (.b64 v)) else .skip) ++
      .when pretty (.tab (d + 1)) ++ .txt (b "]")
  | .strs l => pick pretty "[\n" "[" ++
      (if findable name then lineLoop pretty d (l.map fun s => .txt (quote s)) else .skip) ++
      .when pretty (.tab (d + 1)) ++ .txt (b "]")
  | .other => .skip

/-- oc_rep_to_json.c:152-163: indentation and name. -/
def head (pretty : Bool) (d : Nat) (name : List UInt8) : Prog :=
  .when pretty (.tab (d + 1)) ++
  (if name.length > 0 then .txt (b "\"" ++ cstr name ++ b (if pretty then "\" : " else "\":")) else .skip)

/-- Is there a next element? -/
def Rep.isDone : Rep → Bool
  | .done => true
  | _ => false

/-- oc_rep_to_json.c:398-406: after a value. -/
def tail (pretty : Bool) (next : Rep) : Prog :=
  .when (!next.isDone) (.txt (b ",")) ++ .when pretty (.txt (b "\n"))

mutual
/-- oc_rep_to_json.c:143-409 `oc_rep_to_json_format`. -/
def format (pretty : Bool) (d : Nat) : Rep → Prog
  | .done => .skip
  | .leaf name v next => head pretty d name ++ leafProg pretty d name v ++ tail pretty next ++ format pretty d next
  | .obj name child next =>
    head pretty d name ++ pick pretty "{\n" "{" ++ .call (format pretty (d + 1) child) ++
      .when pretty (.tab (d + 1)) ++ .txt (b "}") ++ tail pretty next ++ format pretty d next
  | .objArr name items next =>
    head pretty d name ++ .txt (b "[") ++ .when pretty (.txt (b "\n")) ++
      (if items.isDone then .fault else itemsProg pretty d items) ++
      .when pretty (.tab (d + 2)) ++ .txt (b "}]") ++ tail pretty next ++ format pretty d next
/-- oc_rep_to_json.c:364-386: the items of an array of objects. -/
def itemsProg (pretty : Bool) (d : Nat) : Rep → Prog
  | .done => .skip
  | .leaf _ _ _ => .fault
  | .objArr _ _ _ => .fault
  | .obj _ child next =>
    .when pretty (.tab (d + 2)) ++ pick pretty "{\n" "{" ++ .call (format pretty (d + 2) child) ++
      (if next.isDone then .skip
       else .when pretty (.tab (d + 2)) ++ pick pretty "},\n" "}," ++ itemsProg pretty d next)
end

/-- oc_rep_to_json.c:418-419, 427: an unnamed object at the root stands for an
array of objects; nothing is printed between the brackets if its object is
empty. -/
def rootArray : Rep → Bool × Bool
  | .obj name child _ => if name.length = 0 then (true, !child.isDone) else (false, true)
  | _ => (false, true)

/-- oc_rep_to_json.c:411-440 `oc_rep_to_json`. -/
def toJson (pretty : Bool) (r : Rep) : Prog :=
  .txt (b (if (rootArray r).1 then "[" else "{")) ++ .when pretty (.txt (b "\n")) ++
  .when (rootArray r).2 (.call (format pretty 0 r)) ++
  .txt (b (if (rootArray r).1 then "]" else "}")) ++ .when pretty (.txt (b "\n"))

/-! ## Running on a buffer -/

/-- The local variables `buf` (as offset), `buf_size`, `total_char_printed` and the
memory of the caller's buffer; `null` tells that the caller passed a null pointer
(with size 0). -/
structure Loc where
  mem : List UInt8
  off : Nat
  size : Nat
  total : Nat
  null : Bool
  deriving DecidableEq

/-- `size_t` arithmetic. -/
def sz (n : Nat) : Nat := n % 2 ^ 64

/-- `snprintf(buf, size, ...)` for a text (C11 §7.21.6.5): at most `size - 1` bytes
and a NUL. -/
def snprintf (mem : List UInt8) (off size : Nat) (t : List UInt8) : Out (List UInt8) :=
  if size = 0 then .ok mem else writeChk mem off (t.take (size - 1) ++ [0])

/-- oc_rep_to_json.c:53-67 `OC_JSON_UPDATE_BUFFER_AND_TOTAL`. -/
def Loc.update (l : Loc) (n : Nat) : Loc :=
  if n < l.size then { l with total := sz (l.total + n), off := l.off + n, size := l.size - n }
  else { l with total := sz (l.total + n), off := l.off + l.size, size := 0 }

/-- `snprintf` and the macro. -/
def Loc.emit (l : Loc) (t : List UInt8) : Out Loc :=
  (snprintf l.mem l.off l.size t).bind fun m => .ok ({ l with mem := m }.update t.length)

/-- oc_rep_to_json.c:86-90 with util/oc_buffer.c:24-46 `oc_buffer_write`: `n`
indentations; the result is the memory and the total, or `(size_t)-1`. -/
def tabLoop : Nat → List UInt8 → Nat → Nat → Nat → Bool → Out (List UInt8 × Nat)
  | 0, mem, _, _, total, _ => .ok (mem, total)
  | n + 1, mem, off, size, total, null =>
    (snprintf mem off size (b "  ")).bind fun mem =>
    if null then tabLoop n mem off size (total + 2) null
    else if 2 ≥ size then .ok (mem, 2 ^ 64 - 1)
    else tabLoop n mem (off + 2) (size - 2) (total + 2) null

/-- oc_rep_to_json.c:119-128: the encoded bytes. A result -1 of the encoder becomes
`(size_t)-1`. -/
def b64Mid (l : Loc) (v : List UInt8) : Out Loc :=
  let n := Base64.encodedSize v.length true + 1
  if l.size > n then
    (Base64.encode .std true v n).bind fun r =>
    match r with
    | none => .ok (l.update (2 ^ 64 - 1))
    | some t => (writeChk l.mem l.off t).bind fun m => .ok ({ l with mem := m }.update t.length)
  else .ok { l with off := l.off + l.size, size := 0, total := sz (l.total + (n - 1)) }

/-- oc_rep_to_json.c:101-132 `oc_rep_to_json_base64_encoded_byte_string`. -/
def b64Call (l : Loc) (v : List UInt8) : Out Loc :=
  (l.emit (b "\"")).bind fun l => (b64Mid l v).bind fun l => l.emit (b "\"")

/-- Running a program on a buffer. -/
def run : Prog → Loc → Out Loc
  | .skip, l => .ok l
  | .txt t, l => l.emit t
  | .tab d, l =>
    (tabLoop d l.mem l.off l.size 0 l.null).bind fun r => .ok ({ l with mem := r.1 }.update r.2)
  | .b64 v, l => b64Call l v
  | .call p, l =>
    (run p { l with total := 0 }).bind fun i => .ok ({ l with mem := i.mem }.update i.total)
  | .seq p q, l => (run p l).bind fun l => run q l
  | .fault, _ => .ub

/-- oc_rep_to_json.c:411-440 on a buffer: its contents afterwards and the result. -/
def dump (pretty : Bool) (r : Rep) (mem : List UInt8) (null : Bool) : Out (List UInt8 × Nat) :=
  (run (toJson pretty r) ⟨mem, 0, mem.length, 0, null⟩).bind fun l => .ok (l.mem, l.total)

end Verif.RepJson
