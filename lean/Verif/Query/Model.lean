import Verif.Bytes

/-!
Model of api/oc_query.c: parsing of the query of a request.

Pointers into the query are offsets. The conversions of positions to `int` are
exact for queries shorter than `INT_MAX` (assertions :152, 222), which is assumed
of the caller (the query is a part of a received message).
-/

namespace Verif.Query

/-- '&'. -/
def amp : UInt8 := 38
/-- '='. -/
def eqs : UInt8 := 61

/-- `memchr(query + start, c, query_len - start)` (C11 §7.24.5.1): offset of the
first occurrence. -/
def memchr (q : List UInt8) (start : Nat) (c : UInt8) : Option Nat :=
  match (q.drop start).findIdx? (· == c) with
  | none => none
  | some i => some (start + i)

/-- oc_query.c:75-81 `key_value_pair_t` with offsets for pointers. -/
structure Pair where
  key : Nat
  keyLen : Nat
  value : Option Nat
  valueLen : Nat
  deriving DecidableEq, Repr

/-- oc_query.c:94-103: the start of the nth pair, `i` separators still to skip. -/
def skipPairs (q : List UInt8) : Nat → Nat → Option Nat
  | 0, start => some start
  | i + 1, start =>
    match memchr q start amp with
    | none => none
    | some p => skipPairs q i (p + 1)

/-- oc_query.c:104-122: the pair that begins at `start`. The comparison of
pointers :109 with a null `value` is taken to be false. -/
def pairAt (q : List UInt8) (start : Nat) : Pair :=
  let value := memchr q start eqs
  let next := memchr q start amp
  let value := match next, value with
    | some n, some v => if n < v then none else some v
    | _, v => v
  match value with
  | none => ⟨start, (match next with | some n => n - start | none => q.length - start), none, 0⟩
  | some v => ⟨start, v - start, some (v + 1),
      match next with | some n => n - (v + 1) | none => q.length - (v + 1)⟩

/-- oc_query.c:83-123 `oc_ri_find_query_nth_key_value_pair`; `none` for a null
key. `n` is at least 1. -/
def findNth (q : List UInt8) (n : Nat) : Option Pair :=
  if q.length = 0 then none
  else match skipPairs q (n - 1) 0 with
    | none => none
    | some s => some (pairAt q s)

/-- oc_query.c:148-150. -/
def nextPos (p : Pair) : Nat :=
  match p.value with
  | some v => v + p.valueLen
  | none => p.keyLen

/-- oc_query.c:125-154 `oc_ri_get_query_nth_key_value`: the pair and the returned
position; `none` for -1. -/
def nthKeyValue (q : List UInt8) (n : Nat) : Option (Pair × Nat) :=
  match findNth q n with
  | none => none
  | some p => some (p, nextPos p + 1)

/-- oc_query.c:200-224 `oc_ri_query_nth_key_exists`. -/
def nthKeyExists (q : List UInt8) (n : Nat) : Option (Pair × Nat) :=
  match findNth q n with
  | none => none
  | some p => some (p, if nextPos p < q.length then nextPos p + 1 else nextPos p)

/-- `tolower` in the C locale. -/
def lower (c : UInt8) : UInt8 := if 65 ≤ c ∧ c ≤ 90 then c + 32 else c

/-- `strncasecmp(a, b, n) == 0` for two arrays of at least `n` bytes: the
comparison ends at a NUL in both. -/
def caseEq : List UInt8 → List UInt8 → Bool
  | a :: r, b :: t => if lower a = lower b then (if a = 0 then true else caseEq r t) else false
  | [], [] => true
  | _, _ => false

/-- options_internal.h:90 `COAP_OPTION_QUERY_MAX_SIZE`. -/
def keyMax : Nat := 255

/-- oc_query.c:168-187: the loop; `fuel` bounds the number of iterations. -/
def valueLoop (q key : List UInt8) : Nat → Nat → Option (Option Nat × Nat)
  | 0, _ => none
  | fuel + 1, pos =>
    if pos < q.length then
      match nthKeyValue (q.drop pos) 1 with
      | none => none
      | some (p, next) =>
        if p.keyLen = key.length ∧ caseEq key (slice q (pos + p.key) p.keyLen) then
          some (p.value.map (pos + ·), p.valueLen)
        else valueLoop q key fuel (pos + next)
    else none

/-- oc_query.c:156-189 `oc_ri_get_query_value_v1`: the value (a null pointer if
the key has none) and its length; `none` for -1. -/
def getValue (q key : List UInt8) : Option (Option Nat × Nat) :=
  if key.length > keyMax then none else valueLoop q key (q.length + 1) 0

/-- oc_query.c:236-250: the loop. -/
def existsLoop (q key : List UInt8) : Nat → Nat → Bool
  | 0, _ => false
  | fuel + 1, pos =>
    if pos < q.length then
      match nthKeyExists (q.drop pos) 1 with
      | none => false
      | some (p, next) =>
        if p.keyLen = key.length ∧ caseEq key (slice q (pos + p.key) p.keyLen) then true
        else existsLoop q key fuel (pos + next)
    else false

/-- oc_query.c:226-252 `oc_ri_query_exists_v1`. -/
def keyExists (q key : List UInt8) : Bool :=
  if key.length > keyMax then false else existsLoop q key (q.length + 1) 0

/-- oc_query.c:268-276 `oc_iterate_query`: the iterator and the pair. -/
def iterate (q : List UInt8) (it : Nat) : Nat × Option (Pair × Nat) :=
  (it + 1, nthKeyValue q (it + 1))

/-- oc_query.c:291-307: the loop of `oc_iterate_query_get_values_v1`; the result
is the iterator, the value stored through the pointer (if any) and the returned
truth value. -/
def iterateValues (q key : List UInt8) : Nat → Nat → Nat × Option (Option Nat × Nat) × Bool
  | 0, it => (it, none, false)
  | fuel + 1, it =>
    match nthKeyValue q (it + 1) with
    | none => (it + 1, none, false)
    | some (p, next) =>
      if key.length = p.keyLen ∧ key = slice q p.key p.keyLen then
        (it + 1, some (p.value, p.valueLen), decide (next < q.length))
      else iterateValues q key fuel (it + 1)

end Verif.Query
