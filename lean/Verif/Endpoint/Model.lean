import Verif.Dec
import Verif.Bytes
import Verif.Common
/-!
Model of endpoints: `api/oc_endpoint.c` and `port/common/oc_ip.c`, the build with
`OC_TCP` and `OC_IPV4`.

Texts are lists of bytes without terminator; the terminating NUL is the byte
behind the list.  `inet_ntop` for IPv6 and the name resolver are parameters.
-/
namespace Verif.Endpoint

/-- Byte strings (modelling convention). -/
abbrev Bytes := List UInt8

/-- `transport_flags`, include/oc_endpoint.h:75-84: one field per bit. -/
structure Flags where
  discovery : Bool := false
  secured : Bool := false
  ipv4 : Bool := false
  ipv6 : Bool := false
  tcp : Bool := false
  gatt : Bool := false
  multicast : Bool := false
  accepted : Bool := false
  deriving DecidableEq, Repr

/-- `oc_endpoint_t`, include/oc_endpoint.h:90-113.  The union `addr` starts with
the port for both kinds of address and both address arrays start at the same
offset (include/oc_endpoint.h:44-59), so `bytes` is the 16 byte array and an IPv4
address is its first four bytes.  Simplification: `next`, `di`, `addr_local`,
`interface_index`, `priority`, `version`, `piv` and the scope are left out: no
function modelled here looks at them. -/
structure Ep where
  flags : Flags := {}
  device : Nat := 0
  port : UInt16 := 0
  bytes : Bytes := List.replicate 16 0
  session : Nat := 0
  deriving DecidableEq, Repr

/-- `endpoint_flags_to_scheme`, api/oc_endpoint.c:92-107 with the texts of
api/oc_endpoint_internal.h:39-42: `coaps+tcp://`, `coap+tcp://`, `coaps://`,
`coap://`. -/
def scheme (f : Flags) : Bytes :=
  if f.tcp then
    if f.secured then [99, 111, 97, 112, 115, 43, 116, 99, 112, 58, 47, 47]
    else [99, 111, 97, 112, 43, 116, 99, 112, 58, 47, 47]
  else if f.secured then [99, 111, 97, 112, 115, 58, 47, 47]
  else [99, 111, 97, 112, 58, 47, 47]

/-! ### Writing -/

/-- `snprintf(&buffer[off], size - off, ...)` producing `text`: C11 §7.21.6.5, used
at port/common/oc_ip.c:75, 91, 113.  Nothing is written if there is no room, else
the text cut to the room minus one, and the terminator. -/
def snprintf (buf : Bytes) (off : Nat) (text : Bytes) : Out Bytes :=
  if buf.length - off = 0 then .ok buf
  else writeChk buf off (text.take (buf.length - off - 1) ++ [0])

/-- `oc_endpoint_flags_to_scheme`, api/oc_endpoint.c:109-122, for a buffer that is
not NULL: the returned number and the buffer. -/
def flagsToScheme (f : Flags) (buf : Bytes) : Out (Int × Bytes) :=
  if (scheme f).length < buf.length then
    (writeChk buf 0 (scheme f)).bind fun b1 =>
    (writeChk b1 (scheme f).length [0]).bind fun b2 =>
    .ok ((scheme f).length, b2)
  else .ok (-1, buf)

/-- The text `%u.%u.%u.%u` of port/common/oc_ip.c:91-92. -/
def quad (a : Bytes) : Bytes :=
  dec (a.getD 0 0).toNat ++ 46 :: (dec (a.getD 1 0).toNat ++ 46 ::
    (dec (a.getD 2 0).toNat ++ 46 :: dec (a.getD 3 0).toNat))

/-- `oc_ipv4_address_to_string`, port/common/oc_ip.c:84-97, into `buf` from `off`
on. -/
def v4String (e : Ep) (buf : Bytes) (off : Nat) : Out (Int × Bytes) :=
  (snprintf buf off (quad e.bytes)).bind fun b1 =>
  if (quad e.bytes).length ≥ buf.length - off then .ok (-1, b1)
  else .ok ((quad e.bytes).length, b1)

/-- `oc_ipv4_address_and_port_to_string`, port/common/oc_ip.c:99-118. -/
def v4PortString (e : Ep) (buf : Bytes) (off : Nat) : Out (Int × Bytes) :=
  (v4String e buf off).bind fun r =>
  if r.1 < 0 then .ok (-1, r.2) else
  let n := r.1.toNat
  let text := 58 :: dec e.port.toNat
  (snprintf r.2 (off + n) text).bind fun b2 =>
  if text.length ≥ buf.length - off - n then .ok (-1, b2)
  else .ok (n + text.length, b2)

/-- `oc_ipv6_address_to_string`, port/common/oc_ip.c:41-54.  `ntop` is the text
`inet_ntop(AF_INET6, ...)` makes; it is written with its terminator if that fits,
else the call fails and writes nothing (POSIX `inet_ntop`, `ENOSPC`). -/
def v6String (ntop : Bytes → Bytes) (e : Ep) (buf : Bytes) (off : Nat) :
    Out (Int × Bytes) :=
  if (ntop e.bytes).length + 1 ≤ buf.length - off then
    (writeChk buf off (ntop e.bytes ++ [0])).bind fun b1 =>
    .ok ((ntop e.bytes).length, b1)
  else .ok (-1, buf)

/-- `oc_ipv6_address_and_port_to_string`, port/common/oc_ip.c:56-80; `8` is
`sizeof("[::1]:X")`. -/
def v6PortString (ntop : Bytes → Bytes) (e : Ep) (buf : Bytes) (off : Nat) :
    Out (Int × Bytes) :=
  if buf.length - off < 8 then .ok (-1, buf) else
  (writeChk buf off [91]).bind fun b0 =>
  (v6String ntop e b0 (off + 1)).bind fun r =>
  if r.1 < 0 then .ok (-1, r.2) else
  let start := 1 + r.1.toNat
  let text := 93 :: 58 :: dec e.port.toNat
  (snprintf r.2 (off + start) text).bind fun b2 =>
  if text.length ≥ buf.length - off - start then .ok (-1, b2)
  else .ok (start + text.length, b2)

/-- `oc_endpoint_address_and_port_to_cstring`, api/oc_endpoint.c:139-154. -/
def addrPortString (ntop : Bytes → Bytes) (e : Ep) (buf : Bytes) (off : Nat) :
    Out (Int × Bytes) :=
  if e.flags.ipv4 then v4PortString e buf off
  else if e.flags.ipv6 then v6PortString ntop e buf off
  else .ok (-1, buf)

/-- `oc_endpoint_to_cstring`, api/oc_endpoint.c:156-176, for a buffer that is not
NULL. -/
def toCString (ntop : Bytes → Bytes) (e : Ep) (buf : Bytes) : Out (Int × Bytes) :=
  (flagsToScheme e.flags buf).bind fun r =>
  if r.1 < 0 then .ok (-1, r.2) else
  (addrPortString ntop e r.2 r.1.toNat).bind fun q =>
  if q.1 < 0 then .ok (-1, q.2) else
  if ¬ r.1 ≤ intMax - q.1 then .ub else
  .ok (r.1 + q.1, q.2)

/-- `oc_endpoint_to_string64`, api/oc_endpoint.c:193-208: the text, if it could be
written.  The array of `oc_string64_t` has 64 bytes. -/
def toString64 (ntop : Bytes → Bytes) (e : Ep) : Out (Option Bytes) :=
  (toCString ntop e (List.replicate 64 0)).bind fun r =>
  if r.1 < 0 then .ok none else .ok (some (r.2.take r.1.toNat))

/-! ### Reading -/

/-- `isspace` in the "C" locale (C11 §7.4.1.10), used inside `strtoul`. -/
def isSpace (c : UInt8) : Bool := (9 ≤ c && c ≤ 13) || c == 32

/-- A decimal digit, as tested at api/oc_endpoint.c:467 and inside `strtoul`. -/
def isDigit (c : UInt8) : Bool := 48 ≤ c && c ≤ 57

/-- The digits `strtoul` consumes: the leading run of decimal digits. -/
def digits : Bytes → Bytes
  | [] => []
  | c :: s => if isDigit c then c :: digits s else []

/-- The value of the digits, saturating at `ULONG_MAX` (64 bit `unsigned long`). -/
def satVal (ds : Bytes) : Nat := min (decVal ds) 18446744073709551615

/-- The leading white space `strtoul` skips. -/
def skipSpace : Bytes → Bytes
  | [] => []
  | c :: s => if isSpace c then skipSpace s else c :: s

/-- `strtoul(s, &end, 10)` on the bytes up to the terminator, C11 §7.22.1.4: the
value and the number of bytes consumed; nothing is consumed without digits. -/
def strtoul (s : Bytes) : Nat × Nat :=
  let r := skipSpace s
  let sp := s.length - r.length
  let neg := r.head? == some 45
  let sg := if neg || r.head? == some 43 then 1 else 0
  let ds := digits (r.drop sg)
  if ds = [] then (0, 0)
  else
    (if neg && decVal ds ≤ 18446744073709551615
      then (18446744073709551616 - satVal ds) % 18446744073709551616 else satVal ds,
     sp + sg + ds.length)

/-- The position of the first byte `c`, `memchr`. -/
def indexOf (c : UInt8) : Bytes → Option Nat
  | [] => none
  | d :: s => if d = c then some 0 else (indexOf c s).map (· + 1)

/-- The loop of `oc_parse_ipv4_address`, api/oc_endpoint.c:232-238: `k` octets are
still to be read, `s` is the text at `&address[str_idx]` and `n` is
`len - str_idx` (0 if `str_idx` is behind `len`).  The result are the octets
stored.  Simplification: the octets not stored keep the zeros of
api/oc_endpoint.c:600, see `parseV4`. -/
def v4Loop : Nat → Bytes → Nat → Bytes
  | 0, _, _ => []
  | k + 1, s, n =>
    if n = 0 then [] else
    let r := strtoul s
    UInt8.ofNat r.1 :: v4Loop k (s.drop (r.2 + 1)) (n - (r.2 + 1))

/-- `oc_parse_ipv4_address`, api/oc_endpoint.c:225-239: the whole address array of
an endpoint that was zeroed before. -/
def parseV4 (s : Bytes) (len : Nat) : Bytes :=
  let o := v4Loop 4 s len
  o ++ List.replicate (16 - o.length) 0

/-- The `switch` of `hex_to_bin`, api/oc_endpoint.c:248-304: the digit's value, any
other byte is taken as it is. -/
def hexDig (h : UInt8) : UInt8 :=
  if 48 ≤ h ∧ h ≤ 57 then h - 48
  else if 97 ≤ h ∧ h ≤ 102 then h - 87
  else if 65 ≤ h ∧ h ≤ 70 then h - 55
  else h

/-- `hex_to_bin`, api/oc_endpoint.c:242-311: `b` is the accumulator. -/
def hexToBin : Bytes → UInt8 → UInt8
  | [], b => b
  | [h], b => b ||| hexDig h
  | h :: t, b => hexToBin t ((b ||| hexDig h) <<< 4)

/-- The two bytes stored for a segment of 1 to 4 bytes, api/oc_endpoint.c:333-361;
`none` is a segment that is too long. -/
def segBytes (g : Bytes) : Option Bytes :=
  match g with
  | [a, b, c, d] => some [hexToBin [a, b] 0, hexToBin [c, d] 0]
  | [a, b, c] => some [hexToBin [a] 0, hexToBin [b, c] 0]
  | [a, b] => some [0, hexToBin [a, b] 0]
  | [a] => some [0, hexToBin [a] 0]
  | _ => none

/-- The start of an iteration, api/oc_endpoint.c:323-326: a first "::" at the
current position is recorded with the number `k` of bytes stored so far and
skipped.  `s` is the text at `&address[str_idx]`, `n` is `len - str_idx`. -/
def v6Split (s : Bytes) (n : Nat) (k : Nat) (sp : Option Nat) :
    Bytes × Nat × Option Nat :=
  if sp = none ∧ s.take 2 = [58, 58] then (s.drop 2, n - 2, some k) else (s, n, sp)

theorem v6Split_le (s : Bytes) (n k : Nat) (sp : Option Nat) : (v6Split s n k sp).2.1 ≤ n := by
  unfold v6Split; split <;> simp

/-- The loop of `oc_parse_ipv6_address`, api/oc_endpoint.c:322-362.  `s` is the text
at `&address[str_idx]` up to the terminator, `n` is `len - str_idx`, `out` are the
bytes stored so far (`addr_idx` of them), `sp` is `split`.  The result is `none`
for the `return false` of line 360.  Undefined: `len - str_idx` of line 327
wrapping below zero, a segment reaching behind the text, a store behind the
array.  Simplification: the bytes not stored yet keep the zeros of line 317, see
`parseV6`. -/
def v6Loop (s : Bytes) (n : Nat) (out : Bytes) (sp : Option Nat) :
    Out (Option (Bytes × Option Nat)) :=
  if _h : ¬ (out.length < 15 ∧ 0 < n) then .ok (some (out, sp)) else
  if sp = none ∧ s.take 2 = [58, 58] ∧ n < 2 then .ub else
  let q := v6Split s n out.length sp
  if q.1.length < q.2.1 then .ub else
  let segLen := (indexOf 58 (q.1.take q.2.1)).getD q.2.1
  if _h2 : segLen = 0 then v6Loop (q.1.drop 1) (q.2.1 - 1) out q.2.2 else
  match segBytes (q.1.take segLen) with
  | none => .ok none
  | some bs =>
    if out.length + 2 > 16 then .ub else
    v6Loop (q.1.drop segLen) (q.2.1 - segLen) (out ++ bs) q.2.2
  termination_by n
  decreasing_by
    all_goals
      have := v6Split_le s n out.length sp
      try simp +zetaDelta only at *
      omega

/-- The loop moving the bytes behind the split to the end,
api/oc_endpoint.c:364-374: `c` bytes are still to be moved, the last of them is
`split + c - 1`; `dst` is `addr_idx`. -/
def v6Shift (a : Bytes) (split : Nat) : Nat → Nat → Bytes
  | 0, _ => a
  | c + 1, dst =>
    v6Shift ((a.set dst (a.getD (split + c) 0)).set (split + c) 0) split c (dst - 1)

/-- `oc_parse_ipv6_address`, api/oc_endpoint.c:313-378: the address, if the text was
accepted. -/
def parseV6 (s : Bytes) (len : Nat) : Out (Option Bytes) :=
  (v6Loop s len [] none).bind fun r =>
  match r with
  | none => .ok none
  | some (o, sp) =>
    let a := o ++ List.replicate (16 - o.length) 0
    match sp with
    | none => .ok (some a)
    | some k => .ok (some (v6Shift a k (o.length - k) 15))

/-- One test of `parse_endpoint_flags`, api/oc_endpoint.c:397-399. -/
def hasScheme (t : Bytes) (f : Flags) : Bool :=
  decide (t.length > (scheme f).length) && t.take (scheme f).length == scheme f

/-- `parse_endpoint_flags`, api/oc_endpoint.c:391-417; `none` is the result -1. -/
def parseFlags (t : Bytes) : Option Flags :=
  if hasScheme t { tcp := true, secured := true } then some { tcp := true, secured := true }
  else if hasScheme t { tcp := true } then some { tcp := true }
  else if hasScheme t { secured := true } then some { secured := true }
  else if hasScheme t {} then some {}
  else none

/-- The loop validating the port, api/oc_endpoint.c:466-471, on the bytes at `d`
including the terminator; reading on behind the terminator is undefined. -/
def portLoop : Bytes → Nat → Out Bool
  | _, 0 => .ok true
  | [], _ + 1 => .ub
  | c :: s, n + 1 => if isDigit c then portLoop s n else .ok false

/-- Where the port starts, api/oc_endpoint.c:445-457: the position of the colon in
`address`; outer `none` is the `return false` of line 450. -/
def findPort (a : Bytes) : Option (Option Nat) :=
  if a.head? = some 91 then
    match indexOf 93 a with
    | none => none
    | some p => some ((indexOf 58 ((a.drop p).take (a.length - (p + 1)))).map (· + p))
  else some (indexOf 58 a)

/-- `endpoint_uri_t`, api/oc_endpoint.c:380-389: the scheme's flags, the text behind
the scheme, the length of the host, the path and the port. -/
structure Uri where
  flags : Flags
  address : Bytes
  hostLen : Nat
  uri : Option Bytes
  port : UInt16
  deriving DecidableEq, Repr

/-- The length of the port's text, api/oc_endpoint.c:465: up to the slash at `u` or
the end of the address, from `d` on.  The subtraction `u - d` is done in 64 bit, as
`size_t`. -/
def portLen (u : Option Nat) (n d : Nat) : Nat :=
  match u with
  | some u => (u + 18446744073709551616 - d) % 18446744073709551616
  | none => n - d

/-- `parse_endpoint_uri`, api/oc_endpoint.c:419-498, with `parse_uri` set. -/
def parseUri (t : Bytes) : Out (Option Uri) :=
  match parseFlags t with
  | none => .ok none
  | some f =>
    let a := t.drop (scheme f).length
    let u := indexOf 47 a
    match findPort a with
    | none => .ok none
    | some none =>
      .ok (some ⟨f, a, u.getD a.length, u.map a.drop, if f.secured then 5684 else 5683⟩)
    | some (some p) =>
      let d := p + 1
      (portLoop (a.drop d ++ [0]) (portLen u a.length d)).bind fun good =>
      if good then
        .ok (some ⟨f, a, p, u.map a.drop, UInt16.ofNat (strtoul (a.drop d)).1⟩)
      else .ok none

/-- An ASCII letter, api/oc_endpoint.c:534-535. -/
def isAlpha (c : UInt8) : Bool := (65 ≤ c && c ≤ 90) || (97 ≤ c && c ≤ 122)

/-- `address[host_len - 1]`, api/oc_endpoint.c:534-535: with `host_len` 0 the index
wraps around and the byte before the address is read, which is the last byte of
the scheme in the same string. -/
def lastHost (u : Uri) : UInt8 :=
  if u.hostLen = 0 then 47 else u.address.getD (u.hostLen - 1) 0

/-- api/oc_endpoint.c:530-557: the host as a numeric text and its length.  `dns` is
the resolver (`none`: the build without `OC_DNS_LOOKUP`), a function of the
scheme's flags and the host name; simplification: the tries with `IPV4` and `IPV6`
of lines 500-515 are one call. -/
def resolve (dns : Option (Flags → Bytes → Option Bytes)) (u : Uri) :
    Option (Bytes × Nat) :=
  if isAlpha (lastHost u) then
    match dns with
    | none => none
    | some f =>
      if u.hostLen > 254 then none else
      match f u.flags (u.address.take u.hostLen) with
      | none => none
      | some ip => some (ip, ip.length)
  else some (u.address, u.hostLen)

/-- api/oc_endpoint.c:559-590: the endpoint and the path, from the numeric text `a`
of the host, `n` bytes long; `none` if an IPv6 address is not accepted. -/
def readHost (u : Uri) (a : Bytes) (n : Nat) : Out (Option (Ep × Option Bytes)) :=
  if n > 1 ∧ a.head? = some 91 ∧ a[n - 1]? = some 93 then
    (parseV6 (a.drop 1) (n - 2)).bind fun r =>
    match r with
    | none => .ok none
    | some bs =>
      .ok (some ({ flags := { u.flags with ipv6 := true }, port := u.port, bytes := bs },
        u.uri))
  else
    .ok (some ({ flags := { u.flags with ipv4 := true }, port := u.port,
                 bytes := parseV4 a n }, u.uri))

/-- `oc_parse_endpoint_string` and `oc_string_to_endpoint`,
api/oc_endpoint.c:518-602, for arguments that are not NULL: the endpoint and the
path, if the text was accepted. -/
def parse (dns : Option (Flags → Bytes → Option Bytes)) (t : Bytes) :
    Out (Option (Ep × Option Bytes)) :=
  (parseUri t).bind fun r =>
  match r with
  | none => .ok none
  | some u =>
    match resolve dns u with
    | none => .ok none
    | some (a, n) => readHost u a n

/-- The position of the first "://", `strstr` at api/oc_endpoint.c:614; it stops at
the terminator, which for a text with embedded NUL is the first of them. -/
def findSep : Bytes → Option Nat
  | [] => none
  | c :: s =>
    if c = 0 then none
    else if (c :: s).take 3 = [58, 47, 47] then some 0
    else (findSep s).map (· + 1)

/-- `oc_endpoint_string_parse_path`, api/oc_endpoint.c:604-643: the path, if there is
one.  The outer `none` is a string whose pointer is NULL, for which line 614 calls
`strstr(NULL, ...)`. -/
def parsePath (t : Option Bytes) : Out (Option Bytes) :=
  match t with
  | none => .ub
  | some t =>
    match findSep t with
    | none => .ok none
    | some i =>
      let a := t.drop (i + 3)
      if a.length < 1 then .ok none else
      match indexOf 47 a with
      | none => .ok none
      | some p =>
        let r := a.drop p
        match indexOf 63 r with
        | some q => .ok (some (r.take q))
        | none => .ok (some r)

/-! ### Comparing -/

/-- The flags without `MULTICAST` and `ACCEPTED`, api/oc_endpoint.c:702-703. -/
def Flags.plain (f : Flags) : Flags := { f with multicast := false, accepted := false }

/-- `oc_endpoint_compare_session_ids`, api/oc_endpoint.c:684-692; `true` is the
result 0. -/
def sameSession (a b : Ep) : Bool :=
  if a.session = 0 ∨ b.session = 0 then true else decide (a.session = b.session)

/-- `oc_endpoint_compare_address`, api/oc_endpoint.c:658-681; `true` is the result
0. -/
def compareAddress (a b : Ep) : Bool :=
  if a.flags.ipv6 && b.flags.ipv6 then decide (a.bytes = b.bytes)
  else if a.flags.ipv4 && b.flags.ipv4 then decide (a.bytes.take 4 = b.bytes.take 4)
  else false

/-- `oc_endpoint_compare`, api/oc_endpoint.c:695-734; `true` is the result 0. -/
def compare (a b : Ep) : Bool :=
  if a.flags.plain ≠ b.flags.plain ∨ a.device ≠ b.device then false
  else if a.flags.ipv6 then
    if a.bytes = b.bytes ∧ a.port = b.port then sameSession a b else false
  else if a.flags.ipv4 then
    if a.bytes.take 4 = b.bytes.take 4 ∧ a.port = b.port then sameSession a b else false
  else false

/-- `oc_ipv6_endpoint_is_link_local`, api/oc_endpoint.c:645-656; `true` is the
result 0. -/
def isLinkLocal (e : Ep) : Bool :=
  e.flags.ipv6 && e.bytes.getD 0 0 == 0xfe && e.bytes.getD 1 0 == 0x80

end Verif.Endpoint
