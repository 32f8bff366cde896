import Verif.Bytes
import Verif.Dec
/-!
Model of the time stamps: `api/c-timestamp/*.c`, the functions of `api/oc_clock.c`
that use them and the conversions of certificate times in `security/oc_certs.c`,
`security/oc_certs_generate.c`.
-/
namespace Verif.Rfc3339

/-- Byte strings (modelling convention). -/
abbrev Bytes := List UInt8

/-- `timestamp_t`, api/c-timestamp/timestamp.h:43-48. -/
structure TS where
  sec : Int
  nsec : Int
  offset : Int
  deriving DecidableEq, Repr

/-- The range of `uint32_t`. -/
def u32 : Nat := 4294967296

/-- The value fits into `int64_t`. -/
def inI64 (i : Int) : Bool := decide (-9223372036854775808 ≤ i ∧ i ≤ 9223372036854775807)

/-- `timestamp_valid`, timestamp_valid.c:32-44.  The sum at :36 is undefined if it
overflows. -/
def valid (t : TS) : Out Bool :=
  let s := t.sec + t.offset * 60
  if !inI64 s then .ub
  else .ok (!(decide (s < -62135596800) || decide (s > 253402300799) || decide (t.nsec < 0) ||
    decide (t.nsec > 999999999) || decide (t.offset < -1439) || decide (t.offset > 1439)))

/-- `DayOffset`, timestamp_format.c:36-37, timestamp_parse.c:91-92,
timestamp_tm.c:35-36. -/
def dayOffset : List Nat := [0, 306, 337, 0, 31, 61, 92, 122, 153, 184, 214, 245, 275]

/-- The common part of `rdn_to_ymd`, timestamp_format.c:44-54, and
`rdn_to_struct_tm`, timestamp_tm.c:43-49: year and day of the year beginning with
March, and the month before it is reduced. -/
def rdnParts (rdn : Nat) : Nat × Nat × Nat :=
  let z := (rdn + 306) % u32
  let h := (100 * z + u32 - 25) % u32
  let a := h / 3652425
  let bb := (a + u32 - a / 4) % u32
  let y := ((100 * bb + h) % u32) / 36525
  let d := (bb + z + u32 - (1461 * y % u32) / 4) % u32
  let m := ((535 * d + 48950) % u32) / 16384
  (y, m, d)

/-- `rdn_to_ymd`, timestamp_format.c:41-62. -/
def rdnToYmd (rdn : Nat) : Out (Nat × Nat × Nat) :=
  let p := rdnParts rdn
  let y := if p.2.1 > 12 then p.1 + 1 else p.1
  let m := if p.2.1 > 12 then p.2.1 - 12 else p.2.1
  (Out.get dayOffset m).bind fun o => .ok (y % 65536, m % 65536, (p.2.2 + u32 - o) % u32 % 65536)

/-- A decimal digit, `'0' + (v % 10)`. -/
def dig (v : Nat) : UInt8 := UInt8.ofNat (48 + v % 10)
/-- `'0' + (v % 6)`, timestamp_format.c:104, :110, :191. -/
def dig6 (v : Nat) : UInt8 := UInt8.ofNat (48 + v % 6)

/-- The 19 characters of date and time, timestamp_format.c:100-131. -/
def text19 (y m d v : Nat) : Bytes :=
  [dig (y / 10 / 10 / 10), dig (y / 10 / 10), dig (y / 10), dig y, 45, dig (m / 10), dig m, 45, dig (d / 10), dig d, 84,
   dig (v / 10 / 6 / 10 / 6 / 10), dig (v / 10 / 6 / 10 / 6), 58, dig6 (v / 10 / 6 / 10), dig (v / 10 / 6), 58,
   dig6 (v / 10), dig v]

/-- The digits written by the switch, timestamp_format.c:136-171: the last digit
first. -/
def fracDigits : Nat → Nat → Bytes
  | 0, _ => []
  | n + 1, v => fracDigits n (v / 10) ++ [dig v]

/-- The fraction, timestamp_format.c:134-175. -/
def fracText (precision nsec : Nat) : Bytes :=
  if precision = 0 then [] else 46 :: fracDigits precision (nsec / 10 ^ (9 - precision))

/-- The offset, timestamp_format.c:177-197. -/
def offText (o : Int) : Bytes :=
  if o = 0 then [90]
  else
    let v := o.natAbs
    [if o < 0 then 45 else 43, dig (v / 10 / 6 / 10), dig (v / 10 / 6), 58, dig6 (v / 10), dig v]

/-- `timestamp_format_internal`, timestamp_format.c:69-200, into the buffer `dst` of
`len` bytes; for valid time stamps and 0 to 9 digits. -/
def formatInternal (dst : Bytes) (t : TS) (precision : Nat) : Out (Nat × Bytes) :=
  let dlen := 20 + (if t.offset ≠ 0 then 5 else 0) + (if precision ≠ 0 then 1 + precision else 0)
  if dlen ≥ dst.length then .ok (0, dst)
  else
    let sec := t.sec + t.offset * 60 + 62135683200
    if !inI64 sec then .ub
    else
      (rdnToYmd ((sec.tdiv 86400 % (u32 : Int)).toNat)).bind fun ymd =>
      let v := (sec.tmod 86400 % (u32 : Int)).toNat
      (writeChk dst 0 (text19 ymd.1 ymd.2.1 ymd.2.2 v)).bind fun dst =>
      let f := fracText precision t.nsec.toNat
      (writeChk dst 19 f).bind fun dst =>
      let o := offText t.offset
      (writeChk dst (19 + f.length) o).bind fun dst =>
      (writeChk dst (19 + f.length + o.length) [0]).bind fun dst => .ok (dlen, dst)

/-- The number of digits chosen by `timestamp_format`, timestamp_format.c:222-234. -/
def autoPrecision (nsec : Nat) : Nat :=
  if nsec = 0 then 0 else if nsec % 1000000 = 0 then 3 else if nsec % 1000 = 0 then 6 else 9

/-- `timestamp_format`, timestamp_format.c:215-236. -/
def format (dst : Bytes) (t : TS) : Out (Nat × Bytes) :=
  (valid t).bind fun v =>
    if !v then .ok (0, dst) else formatInternal dst t (autoPrecision t.nsec.toNat)

/-- `timestamp_format_precision`, timestamp_format.c:238-246. -/
def formatPrecision (dst : Bytes) (t : TS) (precision : Int) : Out (Nat × Bytes) :=
  (valid t).bind fun v =>
    if !v ∨ precision < 0 ∨ precision > 9 then .ok (0, dst) else formatInternal dst t precision.toNat

/-- `leap_year`, timestamp_parse.c:34-38. -/
def leapYear (y : Nat) : Bool := y % 4 == 0 && (y % 100 != 0 || y % 400 == 0)

/-- The table of `month_days`, timestamp_parse.c:43-46. -/
def daysTable : List (List Nat) :=
  [[0, 31, 28, 31, 30, 31, 30, 31, 31, 30, 31, 30, 31], [0, 31, 29, 31, 30, 31, 30, 31, 31, 30, 31, 30, 31]]

/-- `month_days`, timestamp_parse.c:40-48. -/
def monthDays (y m : Nat) : Out Nat :=
  (Out.get daysTable (if m == 2 && leapYear y then 1 else 0)).bind fun r => Out.get r m

/-- One digit: `p[i] - '0'` is at most 9, timestamp_parse.c:53-60. -/
def digit (s : Bytes) (i : Nat) : Out (Option Nat) :=
  (Out.get s i).bind fun c => .ok (if c - 48 > 9 then none else some (c - 48).toNat)

/-- `parse_2d`, timestamp_parse.c:50-64; `none`: it returned 1. -/
def parse2d (s : Bytes) (i : Nat) : Out (Option Nat) :=
  (digit s i).bind fun a =>
    match a with
    | none => .ok none
    | some a => (digit s (i + 1)).bind fun b => .ok (b.map fun b => a * 10 + b)

/-- `parse_4d`, timestamp_parse.c:66-89. -/
def parse4d (s : Bytes) (i : Nat) : Out (Option Nat) :=
  (parse2d s i).bind fun a =>
    match a with
    | none => .ok none
    | some a => (parse2d s (i + 2)).bind fun b => .ok (b.map fun b => a * 100 + b)

/-- Continue with a parsed number that passes a check (modelling convention for the
chains of `||` in timestamp_parse.c). -/
def check {α : Type} (r : Out (Option Nat)) (p : Nat → Bool) (k : Nat → Out (Option α)) : Out (Option α) :=
  r.bind fun v =>
    match v with
    | none => .ok none
    | some v => if p v then k v else .ok none

/-- `check_format`, timestamp_parse.c:94-104. -/
def checkFormat (s : Bytes) : Out Bool :=
  if s.length < 20 then .ok false
  else
    (Out.get s 4).bind fun a =>
    if a != 45 then .ok false else
    (Out.get s 7).bind fun a =>
    if a != 45 then .ok false else
    (Out.get s 13).bind fun a =>
    if a != 58 then .ok false else
    (Out.get s 16).bind fun a =>
    if a != 58 then .ok false else
    (Out.get s 10).bind fun c => .ok (c == 84 || c == 32 || c == 116)

/-- The check of the day against the month, timestamp_parse.c:118-120. -/
def dayFits (y m d : Nat) : Out Bool :=
  if d > 28 then (monthDays y m).bind fun n => .ok (decide (d ≤ n)) else .ok true

/-- `parse_date`, timestamp_parse.c:106-129: the year counted from March, month,
day. -/
def parseDate (s : Bytes) : Out (Option (Nat × Nat × Nat)) :=
  check (parse4d s 0) (fun y => decide (1 ≤ y)) fun y =>
  check (parse2d s 5) (fun m => decide (1 ≤ m ∧ m ≤ 12)) fun m =>
  check (parse2d s 8) (fun d => decide (1 ≤ d ∧ d ≤ 31)) fun d =>
  (dayFits y m d).bind fun ok =>
    .ok (if ok then some (if m < 3 then y - 1 else y, m, d) else none)

/-- `parse_time`, timestamp_parse.c:131-147. -/
def parseTime (s : Bytes) : Out (Option (Nat × Nat × Nat)) :=
  check (parse2d s 11) (fun h => decide (h ≤ 23)) fun h =>
  check (parse2d s 14) (fun m => decide (m ≤ 59)) fun m =>
  check (parse2d s 17) (fun x => decide (x ≤ 59)) fun x => .ok (some (h, m, x))

/-- `parse_offset`, timestamp_parse.c:149-171. -/
def parseOffset (s : Bytes) (minus : Bool) : Out (Option Int) :=
  (Out.get s 2).bind fun c =>
  if c != 58 then .ok none
  else
    check (parse2d s 0) (fun h => decide (h ≤ 23)) fun h =>
    check (parse2d s 3) (fun m => decide (m ≤ 59)) fun m =>
      .ok (some (if minus then -((h * 60 + m : Nat) : Int) else ((h * 60 + m : Nat) : Int)))

/-- The loop over the digits of the fraction, timestamp_parse.c:208-214: the number
(in `uint32_t`), the count of digits and what follows. -/
def fracLoop : Bytes → Nat → Nat → Nat × Nat × Bytes
  | [], n, k => (n, k, [])
  | c :: l, n, k =>
    if c - 48 > 9 then (n, k, c :: l) else fracLoop l ((n * 10 + (c - 48).toNat) % u32) (k + 1)

/-- The fraction, timestamp_parse.c:203-227: from the character after the seconds on;
the nanoseconds, the next character and what follows it. -/
def parseFrac (s : Bytes) : Out (Option (Nat × UInt8 × Bytes)) :=
  match s with
  | [] => .ub
  | ch :: l =>
    if ch = 46 then
      let r := fracLoop l 0 0
      if r.2.1 < 1 ∨ r.2.1 > 9 then .ok none
      else
        match r.2.2 with
        | [] => .ok none
        | c :: l => .ok (some (r.1 * 10 ^ (9 - r.2.1) % u32, c, l))
    else .ok (some (0, ch, l))

/-- The offset and the end, timestamp_parse.c:229-245. -/
def parseZone (ch : UInt8) (l : Bytes) : Out (Option Int) :=
  if ch = 90 ∨ ch = 122 then .ok (if l = [] then some 0 else none)
  else if l.length < 5 ∨ ¬ (ch = 43 ∨ ch = 45) then .ok none
  else
    (parseOffset l (ch == 45)).bind fun o =>
      .ok (if l.length = 5 then o else none)

/-- The day number, timestamp_parse.c:198-199, computed as `int` and converted. -/
def rdnOf (y m d : Nat) : Out Nat :=
  (Out.get dayOffset m).bind fun o =>
    .ok ((((1461 * y / 4 : Nat) : Int) - (y / 100 : Nat) + (y / 400 : Nat) + o + d - 306) % (u32 : Int)).toNat

/-- `timestamp_parse`, timestamp_parse.c:173-250; `none`: it returned 1. -/
def parse (s : Bytes) : Out (Option TS) :=
  (checkFormat s).bind fun ok =>
  if !ok then .ok none else
  (parseDate s).bind fun date =>
  match date with
  | none => .ok none
  | some (y, m, d) =>
    (parseTime s).bind fun time =>
    match time with
    | none => .ok none
    | some (h, mi, se) =>
      (rdnOf y m d).bind fun rdn =>
      (parseFrac (s.drop 19)).bind fun f =>
      match f with
      | none => .ok none
      | some (nsec, ch, l) =>
        (parseZone ch l).bind fun z =>
          .ok (z.map fun off =>
            ⟨((rdn : Int) - 719163) * 86400 + (h * 3600 + mi * 60 + se : Nat) - off * 60, nsec, off⟩)

/-- `timestamp_compare`, timestamp_compare.c:32-44. -/
def compare (a b : TS) : Int :=
  if a.sec < b.sec then -1 else if a.sec > b.sec then 1
  else if a.nsec < b.nsec then -1 else if a.nsec > b.nsec then 1 else 0

/-- `struct tm`, as filled at timestamp_tm.c:60-64, :83-88. -/
structure TM where
  sec : Int
  min : Int
  hour : Int
  mday : Int
  mon : Int
  year : Int
  wday : Int
  yday : Int
  deriving DecidableEq, Repr

/-- Day of the year, timestamp_tm.c:51-58, from the year `y`, the unreduced month `m`
and the day `c` of the year that begins with March. -/
def yearDay (y m c : Nat) : Nat :=
  if m > 12 then (c + u32 - 306) % u32
  else c + 59 + (if y % 4 == 0 && (y % 100 != 0 || y % 400 == 0) then 1 else 0)

/-- `rdn_to_struct_tm`, timestamp_tm.c:40-65, and the time of the day, :81-88. -/
def tmOf (rdn sod : Nat) (p : Nat × Nat × Nat) : Out (Option TM) :=
  (Out.get dayOffset (if p.2.1 > 12 then p.2.1 - 12 else p.2.1)).bind fun o =>
    .ok (some ⟨(sod % 60 : Nat), (sod / 60 % 60 : Nat), (sod / 60 / 60 : Nat), (p.2.2 : Int) - o,
      ((if p.2.1 > 12 then p.2.1 - 12 else p.2.1 : Nat) : Int) - 1,
      ((if p.2.1 > 12 then p.1 + 1 else p.1 : Nat) : Int) - 1900, (rdn % 7 : Nat), (yearDay p.1 p.2.1 p.2.2 : Int) - 1⟩)

/-- `timestamp_to_tm`, timestamp_tm.c:69-90; `none` is NULL.  (`sec` is a `uint64_t`;
for valid time stamps it does not wrap.) -/
def toTm (t : TS) (loc : Bool) : Out (Option TM) :=
  (valid t).bind fun v =>
  if !v then .ok none else
  let sec := ((t.sec + 62135683200 + (if loc then t.offset * 60 else 0)) % 18446744073709551616).toNat
  tmOf (sec / 86400 % u32) (sec % 86400) (rdnParts (sec / 86400 % u32))

/-- `%02d` of a value that is not negative. -/
def two (i : Int) : Bytes := (if i.toNat < 10 then [48] else []) ++ dec i.toNat

/-- `oc_certs_timestamp_format`, security/oc_certs_generate.c:103-125: the text in the
buffer of `size` bytes; `none` is false. -/
def certFormat (t : TS) (size : Nat) : Out (Option Bytes) :=
  (toTm t false).bind fun tm =>
  match tm with
  | none => .ok none
  | some tm =>
    let s := dec (tm.year + 1900).toNat ++ two (tm.mon + 1) ++ two tm.mday ++ two tm.hour ++ two tm.min ++ two tm.sec
    .ok (if s.length ≥ size then none else some s)

/-- `oc_clock_encode_time_rfc3339`, api/oc_clock.c:35-46, for a clock of `tps` ticks
per second (`OC_CLOCK_SECOND`).  (The nanoseconds are computed through a `double`;
for the values of `OC_CLOCK_SECOND` that divide 10^9 the intermediate values are
integers below 2^53 and the result is exact.) -/
def encodeTime (tps : Nat) (time : Nat) (dst : Bytes) : Out (Nat × Bytes) :=
  format dst ⟨(time / tps : Nat), (time % tps * 1000000000 / tps : Nat), 0⟩

/-- `clock_from_timespec`, api/oc_clock.c:58-63, in `uint64_t`.  (The `double` there is
below 2^53 and its fractional part, a multiple of 10^-9·tps, is not lost.) -/
def fromTimespec (tps : Nat) (sec nsec : Int) : Nat :=
  ((sec * tps + nsec * tps / 1000000000) % 18446744073709551616).toNat

/-- `oc_clock_parse_time_rfc3339_v1`, api/oc_clock.c:65-78; `none` is false. -/
def parseClock (tps : Nat) (s : Bytes) : Out (Option Nat) :=
  (parse s).bind fun t => .ok (t.map fun t => fromTimespec tps t.sec t.nsec)

/-- `mbedtls_x509_time`, the argument at security/oc_certs.c:644. -/
structure X509Time where
  year : Int
  mon : Int
  day : Int
  hour : Int
  min : Int
  sec : Int
  deriving DecidableEq, Repr

/-- `days_offset`, security/oc_certs.c:647-649. -/
def daysOffset : List Int := [0, 31, 59, 90, 120, 151, 181, 212, 243, 273, 304, 334]

/-- `oc_certs_time_to_unix_timestamp`, security/oc_certs.c:643-673 (`long` of 64 bits;
a month of 0 or less is an index out of range). -/
def toUnix (t : X509Time) : Out Nat :=
  let month := t.mon - 1
  let year := t.year + month.tdiv 12
  let mi := month.tmod 12
  if mi < 0 then .ub else
  (Out.get daysOffset mi.toNat).bind fun o =>
  let days := (year - 1970) * 365 + o + (year - 1968).tdiv 4 - (year - 1900).tdiv 100 + (year - 1600).tdiv 400
  let days := if year.tmod 4 = 0 ∧ (year.tmod 100 ≠ 0 ∨ year.tmod 400 = 0) ∧ mi < 2 then days - 1 else days
  let days := days + (t.day - 1)
  .ok ((((days * 24 + t.hour) * 60 + t.min) * 60 + t.sec) % 18446744073709551616).toNat

end Verif.Rfc3339
