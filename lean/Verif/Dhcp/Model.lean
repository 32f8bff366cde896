import Verif.EpAddr.Model
/-!
The DHCP options of the device provisioning client:
api/plgd/device-provisioning-client/plgd_dps_dhcp.c.
-/
namespace Verif.Dhcp

open Verif.EpAddr (Bytes)

/-- `hexchar_to_decimal`, plgd_dps_dhcp.c:84-97; `none` is -1.  Simplification:
bytes above 127 are taken as unsigned, they are no digits either way. -/
def hexVal (c : UInt8) : Option UInt8 :=
  if 48 ≤ c ∧ c ≤ 57 then some (c - 48)
  else if 65 ≤ c ∧ c ≤ 70 then some (10 + (c - 65))
  else if 97 ≤ c ∧ c ≤ 102 then some (10 + (c - 97))
  else none

/-- The loop of `hex_to_value`, plgd_dps_dhcp.c:108-131, at index `i` of the text
with the value so far; `used` of the code is `i` all along.  The result is the number
of characters used and the value, `none` is -1. -/
def hexLoop (i : Nat) (v : UInt8) : Bytes → Option (Nat × UInt8)
  | [] => some (i, v)
  | c :: l =>
    if c = 58 then some (i + 1, v)
    else
      match hexVal c with
      | none => none
      | some d =>
        if i = 2 then some (i, v)
        else hexLoop (i + 1) ((if i = 1 then v <<< 4 else v) ||| d) l

/-- `hex_to_value`, plgd_dps_dhcp.c:99-132.  The assertion of line 103 is undefined
behaviour if it fails. -/
def hexToValue (data : Bytes) : Out (Option (Nat × UInt8)) :=
  if data = [] then .ub else .ok (hexLoop 0 0 data)

/-- The writing of a value into the buffer, plgd_dps_dhcp.c:155-157; `none` is the
NULL buffer. -/
def put (buf : Option Bytes) (needed : Nat) (v : UInt8) : Option Bytes :=
  buf.map fun l => if needed < l.length then l.set needed v else l

/-- The loop of `plgd_dps_hex_string_to_bytes`, plgd_dps_dhcp.c:145-161, with the
text behind index `i`.  `fuel` bounds the rounds: running out of it, a loop without
end, is undefined here, like the failing assertion of line 154.  The result is the
return value (`none` is -1) and the buffer. -/
def hexRounds : Nat → Bytes → Option Bytes → Nat → Out (Option Nat × Option Bytes)
  | _, [], buf, needed => .ok (some needed, buf)
  | 0, _ :: _, _, _ => .ub
  | fuel + 1, text, buf, needed =>
    (hexToValue text).bind fun r =>
    match r with
    | none => .ok (none, buf)
    | some (used, v) =>
      if used ≤ text.length then hexRounds fuel (text.drop used) (put buf needed v) (needed + 1)
      else .ub

/-- `plgd_dps_hex_string_to_bytes`, plgd_dps_dhcp.c:134-162, with a buffer of `n`
bytes or the NULL buffer.  The assertion of line 140 is undefined behaviour if it
fails. -/
def hexStringToBytes (text : Bytes) (n : Option Nat) : Out (Option Nat × Option Bytes) :=
  if text = [] then .ub
  else hexRounds text.length text (n.map fun n => List.replicate n 0) 0

/-- The codes of the options, `plgd_dps_dhcp_t`, plgd_dps_dhcp_internal.h and the
defaults of plgd_dps_dhcp.c:41-50. -/
structure Codes where
  endpoint : UInt8 := 200
  fingerprint : UInt8 := 201
  md : UInt8 := 202
  deriving DecidableEq, Repr

/-- `dhcp_parse_data_t`, plgd_dps_dhcp_internal.h: the values found so far. -/
structure Found where
  endpoint : Option Bytes := none
  fingerprint : Option Bytes := none
  md : Option Bytes := none
  deriving DecidableEq, Repr

/-- `plgd_dps_dhcp_set_option_cbk`, plgd_dps_dhcp.c:191-229; `none` is false. -/
def setOption (c : Codes) (f : Found) (code : UInt8) (data : Bytes) : Option Found :=
  if data.length = 0 then none
  else if code = c.endpoint then some { f with endpoint := some data }
  else if code = c.fingerprint then some { f with fingerprint := some data }
  else if code = c.md then some { f with md := some data }
  else none

/-- `size` bytes of `l` from index `i` on; undefined if they are not all there
(modelling convention). -/
def slice (l : Bytes) (i size : Nat) : Out Bytes :=
  if i + size ≤ l.length then .ok ((l.drop i).take size) else .ub

/-- `parse_option`, plgd_dps_dhcp.c:168-189, of the option whose length byte is at
index `i`; `none` is false, otherwise `used` and the values found. -/
def parseOption (c : Codes) (opts : Bytes) (code : UInt8) (i : Nat) (f : Found) :
    Out (Option (Nat × Found)) :=
  let dataSize := opts.length - i
  if dataSize < 1 then .ub
  else
    (Out.get opts i).bind fun sz =>
    if sz.toNat > dataSize - 1 then .ok none
    else
      (slice opts (i + 1) sz.toNat).bind fun data =>
      match setOption c f code data with
      | none => .ok none
      | some f => .ok (some (sz.toNat + 1, f))

/-- The loop of `dps_dhcp_parse_vendor_encapsulated_options`,
plgd_dps_dhcp.c:240-250.  Running out of `fuel` is undefined here. -/
def parseLoop (c : Codes) (opts : Bytes) : Nat → Nat → Found → Out (Option Found)
  | fuel, i, f =>
    if i + 1 < opts.length then
      match fuel with
      | 0 => .ub
      | fuel + 1 =>
        (Out.get opts i).bind fun code =>
        (parseOption c opts code (i + 1) f).bind fun r =>
        match r with
        | none => .ok none
        | some (used, f) => parseLoop c opts fuel (i + (used + 1)) f
    else .ok (some f)

/-- `dps_dhcp_parse_vendor_encapsulated_options`, plgd_dps_dhcp.c:231-251. -/
def parse (c : Codes) (opts : Bytes) : Out (Option Found) :=
  if opts.length = 0 then .ub else parseLoop c opts opts.length 0 {}

/-- The parts of `plgd_dps_context_t` that the options touch,
plgd_dps_context_internal.h: the addresses of the servers, the pinned fingerprint
and its algorithm (0 is `MBEDTLS_MD_NONE`) and whether the device is provisioned. -/
structure Ctx where
  codes : Codes := {}
  eps : EpAddr.Addrs := {}
  fpMd : Nat := 0
  fp : Option Bytes := none
  provisioned : Bool := false
  deriving DecidableEq, Repr

/-- What the environment answers: `mbedtls_md_info_from_string` with
`mbedtls_md_get_type`, `oc_sec_certs_md_algorithm_is_allowed` and
`mbedtls_md_get_size` (`none` without the algorithm); `lim` is
`OC_ENDPOINT_MAX_ENDPOINT_URI_LENGTH` and `mem` tells whether allocating an address
succeeds. -/
structure Env where
  mdOf : Bytes → Option Nat
  allowed : Nat → Bool
  mdSize : Nat → Option Nat
  lim : Nat
  mem : Bool

/-- `dps_is_equal_string_len`, plgd_dps_apis.c:36-44. -/
def sameStr (s : Option Bytes) (t : Option Bytes) : Bool :=
  match s, t with
  | none, none => true
  | some a, some b => decide (a = b)
  | _, _ => false

/-- `dhcp_parse_md_type`, plgd_dps_dhcp.c:279-306: the name ends at the first NUL
character; at most 255 characters are copied. -/
def mdType (e : Env) (f : Found) : Option Nat :=
  match f.md with
  | none => some 0
  | some d => if d.length > 0 then e.mdOf ((d.take 255).takeWhile (· != 0)) else some 0

/-- `dps_set_certificate_fingerprint`, plgd_dps.c:282-315; `none` is false. -/
def setFingerprint (e : Env) (x : Ctx) (md : Nat) (fp : Option Bytes) : Option Ctx :=
  if md ≠ 0 ∧ (e.allowed md = false ∨ e.mdSize md ≠ some (fp.getD []).length) then none
  else if x.fpMd = md ∧ sameStr x.fp fp = true then some x
  else some { x with fp := fp, fpMd := md }

/-- `dps_set_endpoint`, plgd_dps_endpoints.c:36-63; closing the session and telling
the observers are left out.  The result tells whether the address was set or not
changed. -/
def setEndpoint (e : Env) (x : Ctx) (u : Bytes) : Out (Bool × Ctx) :=
  if x.eps.items.length = 1 ∧ EpAddr.contains x.eps u = true then .ok (true, x)
  else (EpAddr.reinit e.lim e.mem x.eps ⟨u, .name none⟩).bind fun r => .ok (r.1, { x with eps := r.2 })

/-- `dhcp_set_endpoint`, plgd_dps_dhcp.c:253-277. -/
def dhcpSetEndpoint (e : Env) (x : Ctx) (f : Found) : Out (Bool × Ctx) :=
  (EpAddr.isSelected x.eps (f.endpoint.getD [])).bind fun s =>
  if s then .ok (false, x)
  else (setEndpoint e x ((f.endpoint.getD []).take 255)).bind fun r => .ok (true, r.2)

/-- `plgd_dps_dhcp_set_values_t`, include/plgd/plgd_dps.h:704-710. -/
inductive Res where
  | error
  | notChanged
  | updated
  | needReprovision
  deriving DecidableEq, Repr

/-- `plgd_dps_dhcp_set_values_from_vendor_encapsulated_options`,
plgd_dps_dhcp.c:308-355. -/
def setValues (e : Env) (x : Ctx) (opts : Bytes) : Out (Res × Ctx) :=
  (parse x.codes opts).bind fun r =>
  match r with
  | none => .ok (.error, x)
  | some f =>
    match mdType e f with
    | none => .ok (.error, x)
    | some md =>
      (EpAddr.isSelected x.eps (f.endpoint.getD [])).bind fun sel =>
      if x.fpMd = md ∧ sel = true ∧ sameStr x.fp f.fingerprint = true then .ok (.notChanged, x)
      else
        match setFingerprint e x md f.fingerprint with
        | none => .ok (.error, x)
        | some x =>
          (dhcpSetEndpoint e x f).bind fun r =>
          .ok (if r.1 = true ∨ r.2.provisioned = false then .needReprovision else .updated, r.2)

end Verif.Dhcp
