import Verif.Bytes
/-!
Specification of dates, RFC 3339 texts and the instants they denote, independent of
the code: the proleptic Gregorian calendar by counting days.
-/
namespace Verif.Rfc3339.Spec

/-- Leap years of the Gregorian calendar. -/
def leap (y : Nat) : Bool := decide (4 ∣ y) && (!decide (100 ∣ y) || decide (400 ∣ y))

/-- Days of a year. -/
def yearLen (y : Nat) : Nat := if leap y then 366 else 365

/-- Days of a month. -/
def monthLen (y m : Nat) : Nat :=
  if m = 2 then (if leap y then 29 else 28) else if m = 4 ∨ m = 6 ∨ m = 9 ∨ m = 11 then 30 else 31

/-- Days from the beginning of year 1 to the beginning of year `y`. -/
def daysBeforeYear : Nat → Nat
  | 0 => 0
  | y + 1 => if y = 0 then 0 else daysBeforeYear y + yearLen y

/-- Days from the beginning of the year to the beginning of month `m`. -/
def daysBeforeMonth (y : Nat) : Nat → Nat
  | 0 => 0
  | m + 1 => if m = 0 then 0 else daysBeforeMonth y m + monthLen y m

/-- The number of a day, 1 for 0001-01-01. -/
def dayNumber (y m d : Nat) : Nat := daysBeforeYear y + daysBeforeMonth y m + d

/-- An existing date. -/
structure Date (y m d : Nat) : Prop where
  y1 : 1 ≤ y
  m1 : 1 ≤ m
  m12 : m ≤ 12
  d1 : 1 ≤ d
  dl : d ≤ monthLen y m

/-- The `k`-digit decimal text of a number. -/
def pad : Nat → Nat → List UInt8
  | 0, _ => []
  | k + 1, n => pad k (n / 10) ++ [UInt8.ofNat (48 + n % 10)]

/-- The time offset of a text. -/
inductive Zone where
  | utc (c : UInt8)
  | off (neg : Bool) (h m : Nat)

/-- The parts of an RFC 3339 text. -/
structure Parts where
  y : Nat
  m : Nat
  d : Nat
  sep : UInt8
  h : Nat
  mi : Nat
  se : Nat
  /-- number of digits and value of the fraction -/
  frac : Option (Nat × Nat)
  zone : Zone

/-- The text of an offset. -/
def Zone.text : Zone → List UInt8
  | .utc c => [c]
  | .off neg h m => (if neg then 45 else 43) :: (pad 2 h ++ 58 :: pad 2 m)

/-- Minutes of an offset. -/
def Zone.minutes : Zone → Int
  | .utc _ => 0
  | .off neg h m => if neg then -((h * 60 + m : Nat) : Int) else ((h * 60 + m : Nat) : Int)

/-- Allowed offsets. -/
def Zone.Ok : Zone → Prop
  | .utc c => c = 90 ∨ c = 122
  | .off _ h m => h ≤ 23 ∧ m ≤ 59

/-- The text of the fraction. -/
def fracText : Option (Nat × Nat) → List UInt8
  | none => []
  | some (k, v) => 46 :: pad k v

/-- Nanoseconds of the fraction. -/
def fracNsec : Option (Nat × Nat) → Nat
  | none => 0
  | some (k, v) => v * 10 ^ (9 - k)

/-- The whole text. -/
def Parts.text (p : Parts) : List UInt8 :=
  pad 4 p.y ++ 45 :: pad 2 p.m ++ 45 :: pad 2 p.d ++ p.sep :: pad 2 p.h ++ 58 :: pad 2 p.mi ++ 58 :: pad 2 p.se ++
    (fracText p.frac ++ p.zone.text)

/-- Texts with an existing date and time (no leap seconds). -/
structure Parts.Ok (p : Parts) : Prop where
  date : Date p.y p.m p.d
  y4 : p.y ≤ 9999
  sep : p.sep = 84 ∨ p.sep = 32 ∨ p.sep = 116
  h : p.h ≤ 23
  mi : p.mi ≤ 59
  se : p.se ≤ 59
  frac : ∀ k v, p.frac = some (k, v) → 1 ≤ k ∧ k ≤ 9 ∧ v < 10 ^ k
  zone : p.zone.Ok

/-- Seconds since 1970-01-01T00:00:00Z of a local date and time with an offset. -/
def instant (y m d h mi se : Nat) (off : Int) : Int :=
  ((dayNumber y m d : Int) - dayNumber 1970 1 1) * 86400 + (h * 3600 + mi * 60 + se : Nat) - off * 60

/-- The instant of a text. -/
def Parts.sec (p : Parts) : Int := instant p.y p.m p.d p.h p.mi p.se p.zone.minutes

end Verif.Rfc3339.Spec
