import Verif.Common
/-!
Model of `api/oc_uuid.c`.  UUIDs are lists of 16 bytes (`oc_uuid_t`,
include/oc_uuid.h), strings are lists of `char` values as bytes without
terminator.
-/
namespace Verif.Uuid

/-- `OC_UUID_ID_SIZE`, include/oc_uuid.h. -/
def idSize : Nat := 16

/-- `OC_UUID_LEN - 1`: number of characters of the textual form that are looked
at, include/oc_uuid.h (`OC_UUID_LEN` = 37). -/
def textMax : Nat := 36

/-- `isalpha` in the "C" locale, used at api/oc_uuid.c:55.  For a negative
`char` (byte ≥ 128 on the supported platforms) the call is undefined
(C11 §7.4 p1). -/
def isAlpha (ch : UInt8) : Out Bool :=
  if 128 ≤ ch then .ub
  else .ok ((65 ≤ ch && ch ≤ 90) || (97 ≤ ch && ch ≤ 122))

/-- Value or-ed into the accumulator for one character, api/oc_uuid.c:55-86:
letters a-f/A-F give their value, other letters give nothing, everything else
gives `str[i] - 48` converted to `uint8_t`. -/
def charBits (ch : UInt8) : Out UInt8 := do
  if ← isAlpha ch then
    if ch = 65 ∨ ch = 97 then return 0x0a
    else if ch = 66 ∨ ch = 98 then return 0x0b
    else if ch = 67 ∨ ch = 99 then return 0x0c
    else if ch = 68 ∨ ch = 100 then return 0x0d
    else if ch = 69 ∨ ch = 101 then return 0x0e
    else if ch = 70 ∨ ch = 102 then return 0x0f
    else return 0
  else return ch - 48

/-- The loop of `str_to_uuid`, api/oc_uuid.c:51-98.  `acc` is `uid.id[0..j)`
(so `j = acc.length`), `k` and `c` as in C.  `none` is `return -1`. -/
def parseLoop : List UInt8 → List UInt8 → Nat → UInt8 → Out (Option (List UInt8))
  | [], acc, _, _ => .ok (some acc)
  | ch :: rest, acc, k, c =>
    if ch = 45 then parseLoop rest acc k c
    else do
      let c := c ||| (← charBits ch)
      if (acc.length + 1) * 2 = k then
        if acc.length = idSize then return none
        else parseLoop rest (acc ++ [c]) (k + 1) 0
      else parseLoop rest acc (k + 1) (c <<< 4)

/-- `oc_str_to_uuid_v1` with `str_to_uuid`, api/oc_uuid.c:36-118: the return
value and the UUID written through the pointer (`none` in the first component
is `-1`).  The UUID is written by `str_to_uuid` even when `oc_str_to_uuid_v1`
then returns `-1` because fewer than 16 bytes were read (line 99-102, 113);
missing bytes are zero (line 47). -/
def ofStr (s : List UInt8) : Out (Option Nat × Option (List UInt8)) :=
  if s = [42] then .ok (some 1, some (42 :: List.replicate 15 0))
  else do
    match ← parseLoop (s.take textMax) [] 1 0 with
    | none => return (none, none)
    | some acc =>
      let uid := acc ++ List.replicate (idSize - acc.length) 0
      if acc.length ≠ idSize then return (none, some uid)
      else return (some idSize, some uid)

/-- Lower case hexadecimal digit of a value below 16 (`%02x` conversion at
api/oc_uuid.c:157). -/
def hexDigit (v : UInt8) : UInt8 := if v < 10 then v + 48 else v + 87

/-- `snprintf(.., "%02x", b)`, api/oc_uuid.c:157. -/
def hex2 (b : UInt8) : List UInt8 := [hexDigit (b >>> 4), hexDigit (b &&& 0x0f)]

/-- The loop of `oc_uuid_to_str_v1`, api/oc_uuid.c:147-164: `i` is the loop
counter, `cap` the remaining `buflen`; `none` is `-1` (buffer too small). -/
def fmtLoop : Nat → Nat → List UInt8 → Option (List UInt8)
  | _, _, [] => some []
  | i, cap, b :: rest =>
    let dash := i = 4 ∨ i = 6 ∨ i = 8 ∨ i = 10
    if dash ∧ cap ≤ 1 then none
    else
      let cap := if dash then cap - 1 else cap
      if cap ≤ 2 then none
      else
        (fmtLoop (i + 1) (cap - 2) rest).map fun r =>
          (if dash then [45] else []) ++ hex2 b ++ r

/-- `oc_uuid_to_str_v1`, api/oc_uuid.c:130-166: the characters written before
the terminator (`none` is `-1`). -/
def toStr (u : List UInt8) (cap : Nat) : Option (List UInt8) :=
  if u = 42 :: List.replicate 15 0 then
    if cap < 2 then none else some [42]
  else fmtLoop 0 cap u

/-- `oc_gen_uuid`, api/oc_uuid.c:180-206: `r` are the 16 bytes obtained from
four calls of `oc_random_value`. -/
def gen (r : List UInt8) : List UInt8 :=
  let u := r.modify 8 fun x => (x &&& 0x3f) ||| 0x40
  u.modify 6 fun x => (x &&& 0x0f) ||| 0x40

end Verif.Uuid
