import Verif.Common
/-! Model of the hexadecimal conversions of `api/oc_helpers.c`. -/
namespace Verif.Hex

/-- `%02x` digit, api/oc_helpers.c:376. -/
def digit (v : UInt8) : UInt8 := if v < 10 then v + 48 else v + 87

/-- `oc_conv_byte_array_to_hex_string`, api/oc_helpers.c:367-382.  The result is
the characters before the terminator (its length is the new `*hex_str_len`),
`none` is `-1`.  The function writes `2 * array_len + 1` bytes in total, which
the first test guarantees to fit. -/
def toHex (array : List UInt8) (cap : Nat) : Option (List UInt8) :=
  if cap < array.length * 2 + 1 then none
  else some (array.flatMap fun (b : UInt8) => [digit (b >>> (4 : UInt8)), digit (b &&& (0x0f : UInt8))])

/-- `sscanf` with `%1x`/`%2x` on one character.  Simplification: anything that is
not a hexadecimal digit (white space, sign, `0x` prefix, garbage) is mapped to
`ub`: for most of these `tmp` stays uninitialised.  api/oc_helpers.c:406, 412. -/
def scanDigit (c : UInt8) : Out UInt8 :=
  if 48 ≤ c ∧ c ≤ 57 then .ok (c - 48)
  else if 97 ≤ c ∧ c ≤ 102 then .ok (c - 87)
  else if 65 ≤ c ∧ c ≤ 70 then .ok (c - 55)
  else .ub

/-- The loop over pairs of characters, api/oc_helpers.c:410-414.  `none` of the
list is the end of the string; a single leftover character cannot occur. -/
def pairLoop : List UInt8 → Out (List UInt8)
  | a :: b :: rest => do
    let x ← scanDigit a
    let y ← scanDigit b
    let r ← pairLoop rest
    return ((x <<< 4) ||| y) :: r
  | _ => .ok []

/-- `oc_conv_hex_string_to_byte_array`, api/oc_helpers.c:384-417.  The result is
the array written (its length is the new `*array_len`), `none` is `-1`. -/
def ofHex (s : List UInt8) (cap : Nat) : Out (Option (List UInt8)) :=
  if s.length < 1 then .ok none
  else
    let len := if s.length % 2 ≠ 0 then s.length / 2 + 1 else s.length / 2
    if cap < len then .ok none
    else if s.length % 2 ≠ 0 then
      match s with
      | [] => .ub
      | c :: rest => do
        let x ← scanDigit c
        let r ← pairLoop rest
        return some (x :: r)
    else do
      let r ← pairLoop s
      return some r

end Verif.Hex
