import Verif.Bytes

/-!
Model of strings and arrays of strings, api/oc_helpers.c and the macros of
include/oc_helpers.h, in the build with dynamic allocation. A string array is one block of
memory cut into items of `STRING_ARRAY_ITEM_MAX_LEN` bytes.

Simplifications: allocation succeeds (`oc_assert`, api/oc_helpers.c:51, ends the program
otherwise); the arguments that are C strings are given without their NUL.
-/

namespace Verif.StrArr

/-- Bytes. -/
abbrev Bytes := List UInt8

/-- `STRING_ARRAY_ITEM_MAX_LEN`, include/oc_helpers.h:190. -/
abbrev itemMax : Nat := 128

/-- `strlen`: no NUL before the end of the block is `ub`. -/
def strlen : Bytes → Out Nat
  | [] => .ub
  | c :: r => if c = 0 then .ok 0 else (strlen r).bind fun n => .ok (n + 1)

/-- The loop of `_oc_alloc_string_array`, api/oc_helpers.c:276-279; `k` items left from
item `i` on. -/
def clear : Nat → Nat → Bytes → Out Bytes
  | 0, _, buf => .ok buf
  | k + 1, i, buf => (writeChk buf (i * itemMax) [0]).bind fun buf => clear k (i + 1) buf

/-- `_oc_alloc_string_array`, api/oc_helpers.c:263-280; `junk`: what the allocated memory
contains. -/
def alloc (size : Nat) (junk : Bytes) : Out Bytes := clear size 0 junk

/-- `oc_string_array_get_allocated_size`, include/oc_helpers.h:219-220. -/
def count (buf : Bytes) : Nat := buf.length / itemMax

/-- `oc_string_array_get_item_size`, include/oc_helpers.h:213-218. -/
def itemSize (buf : Bytes) (i : Nat) : Out Nat := strlen (buf.drop (i * itemMax))

/-- `_oc_copy_string_to_array`, api/oc_helpers.c:310-322. The index is not checked. -/
def setItem (buf str : Bytes) (i : Nat) : Out (Bool × Bytes) :=
  if str.length ≥ itemMax then .ok (false, buf)
  else (writeChk buf (i * itemMax) (str ++ [0])).bind fun buf => .ok (true, buf)

/-- The loop of `_oc_string_array_add_item`, api/oc_helpers.c:327-332. -/
def addLoop (buf str : Bytes) : Nat → Nat → Out (Bool × Bytes)
  | 0, _ => .ok (false, buf)
  | k + 1, i => (itemSize buf i).bind fun n => if n = 0 then setItem buf str i else addLoop buf str k (i + 1)

/-- `_oc_string_array_add_item`, api/oc_helpers.c:324-334. -/
def addItem (buf str : Bytes) : Out (Bool × Bytes) := addLoop buf str (count buf) 0

/-- The first loop of `oc_join_string_array`, api/oc_helpers.c:339-347. -/
def joinLen (buf : Bytes) : Nat → Nat → Nat → Out Nat
  | 0, _, len => .ok len
  | k + 1, i, len => (itemSize buf i).bind fun n => joinLen buf k (i + 1) (if n ≠ 0 then len + n + 1 else len)

/-- One item of the second loop, api/oc_helpers.c:352-362. -/
def joinOne (out : Bytes) (len : Nat) (item : Bytes) : Out (Bytes × Nat) :=
  if item.length ≠ 0 then
    if len > 0 then
      (writeChk out len [32]).bind fun out => (writeChk out (len + 1) item).bind fun out => .ok (out, len + 1 + item.length)
    else (writeChk out len item).bind fun out => .ok (out, len + item.length)
  else .ok (out, len)

/-- The second loop of `oc_join_string_array`, api/oc_helpers.c:349-363. -/
def joinCopy (buf : Bytes) : Nat → Nat → Bytes → Nat → Out (Bytes × Nat)
  | 0, _, out, len => .ok (out, len)
  | k + 1, i, out, len => (itemSize buf i).bind fun n =>
    (joinOne out len (slice buf (i * itemMax) n)).bind fun x => joinCopy buf k (i + 1) x.1 x.2

/-- `oc_join_string_array`, api/oc_helpers.c:336-365. An allocation of zero bytes fails the
assertion at api/oc_helpers.c:51. `junk`: what the allocated memory contains. -/
def join (buf : Bytes) (junk : Nat → Bytes) : Out Bytes :=
  (joinLen buf (count buf) 0 0).bind fun len =>
    if len = 0 then .ub
    else (joinCopy buf (count buf) 0 (junk len) 0).bind fun x => writeChk x.1 x.2 [0]

/-! ### Arrays of byte strings -/

/-- `oc_byte_string_array_get_item_size`, include/oc_helpers.h:235-236: a `char`, so from
128 on the value would be negative; stored values are below 128. -/
def bSize (buf : Bytes) (i : Nat) : Out Nat := (Out.get buf (i * itemMax)).bind fun c => .ok c.toNat

/-- `oc_byte_string_array_get_item`, include/oc_helpers.h:231-232, with its size. -/
def bItem (buf : Bytes) (i : Nat) : Out Bytes := (bSize buf i).bind fun n => sliceChk buf (i * itemMax + 1) n

/-- `_oc_copy_byte_string_to_array`, api/oc_helpers.c:282-295. -/
def bSet (buf str : Bytes) (i : Nat) : Out (Bool × Bytes) :=
  if ¬ i < count buf then .ub
  else if str.length ≥ itemMax then .ok (false, buf)
  else (writeChk buf (i * itemMax) [UInt8.ofNat str.length]).bind fun buf =>
    (writeChk buf (i * itemMax + 1) str).bind fun buf => .ok (true, buf)

/-- The loop of `_oc_byte_string_array_add_item`, api/oc_helpers.c:301-306. -/
def bAddLoop (buf str : Bytes) : Nat → Nat → Out (Bool × Bytes)
  | 0, _ => .ok (false, buf)
  | k + 1, i => (bSize buf i).bind fun n => if n = 0 then bSet buf str i else bAddLoop buf str k (i + 1)

/-- `_oc_byte_string_array_add_item`, api/oc_helpers.c:297-308. -/
def bAdd (buf str : Bytes) : Out (Bool × Bytes) := bAddLoop buf str (count buf) 0

/-! ### Strings -/

/-- Where the bytes given to `oc_set_string` are: somewhere else, or inside the string that
is set. -/
inductive Src where
  | null
  | other (s : Bytes)
  | inside (off len : Nat)

/-- `oc_new_string`, api/oc_helpers.c:76-93; `junk`: what the allocated memory contains. -/
def newString (s : Bytes) (junk : Bytes) : Out Bytes :=
  (writeChk junk 0 s).bind fun b => writeChk b s.length [0]

/-- `oc_set_string`, api/oc_helpers.c:125-147, in the build with dynamic allocation: the
old bytes are freed before the new ones are read. `none`: a string without memory. -/
def setString (_dst : Option Bytes) (src : Src) (junk : Nat → Bytes) : Out (Option Bytes) :=
  match src with
  | .null => .ok none
  | .other s => (newString s (junk (s.length + 1))).bind fun b => .ok (some b)
  | .inside _ _ => .ub

/-- `oc_concat_strings`, api/oc_helpers.c:206-218. -/
def concat (s t : Bytes) (junk : Nat → Bytes) : Out Bytes :=
  (writeChk (junk (s.length + t.length + 1)) 0 s).bind fun b =>
    (writeChk b s.length t).bind fun b => writeChk b (s.length + t.length) [0]

/-- `oc_string_is_equal`, api/oc_helpers.c:167-178; `none`: NULL or without memory. -/
def isEqual (a b : Option Bytes) : Bool :=
  let x := a.getD []
  let y := b.getD []
  x.length == y.length && (x.length == 0 || x == y)

end Verif.StrArr
