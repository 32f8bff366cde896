import Verif.Coap.Model

/-!
Model of CoAP message serialization and parsing over UDP and TCP
(messaging/coap/coap.c).  Only plain messages are modelled here, that is the
calls with `inner = true`, `outer = true`, `oscore = false` which
`coap_serialize_message`, `coap_udp_parse_message` and `coap_tcp_parse_message`
make; with these flags the OSCORE option is not serialized, and on reception it
is refused as `BAD_OPTION_4_02`.
-/

namespace Verif.CoapMsg

open Verif.Coap

/-- Compile-time switches that the code tests: `OC_TCP`, `OC_SPEC_VER_OIC`,
`OC_JSON_ENCODER`, `OC_WKCORE`, `OC_OSCORE` with `OC_SECURITY`
(messaging/coap/coap.c:406, 463, 690, 701, 952). -/
structure Cfg where
  tcp : Bool
  oic : Bool
  json : Bool
  wkcore : Bool
  oscore : Bool
  deriving Repr, DecidableEq

/-- messaging/coap/coap_internal.h:95-182 `coap_packet_t`.  `σ` is the type of
the fields held by pointer and length.  Simplifications: `token` stands for
`token` with `token_len`, `etag` for `etag` with `etag_len`; the bitmap
`options` is the function `isSet`; the OSCORE fields and the pointer `buffer`
are left out.  Numeric fields are naturals; the ranges of their C types are
preconditions of the theorems that need them. -/
structure Packet (σ : Type) where
  version : Nat
  type : Nat
  code : Nat
  mid : Nat
  token : List UInt8
  isSet : Nat → Bool
  contentFormat : Nat
  maxAge : Nat
  etag : List UInt8
  proxyUri : σ
  uriHost : σ
  uriPort : Nat
  uriPath : σ
  observe : Int
  accept : Nat
  block2 : Block
  block1 : Block
  size2 : Nat
  size1 : Nat
  uriQuery : σ
  maxMsgSize : Nat
  blockwiseTransfer : Nat
  custody : Nat
  altAddr : σ
  holdOff : Nat
  badCsm : Nat
  payload : σ

/-- messaging/coap/constants.h:131-176, the status codes used by the parser. -/
def noError : Nat := 0
/-- messaging/coap/constants.h:141. -/
def badRequest : Nat := 128
/-- messaging/coap/constants.h:143. -/
def badOption : Nat := 130
/-- messaging/coap/constants.h:147. -/
def notAcceptable : Nat := 134
/-- messaging/coap/constants.h:150. -/
def unsupportedMedia : Nat := 143

/-- messaging/coap/coap_internal.h:79-80 `SET_OPTION`. -/
def setOpt {σ : Type} (p : Packet σ) (n : Nat) : Packet σ :=
  { p with isSet := fun k => k == n || p.isSet k }

/-- The packet after `memset(packet, 0, sizeof(coap_packet_t))`
(messaging/coap/coap.c:1466, 1539); `z` is the null pointer with length zero. -/
def zeroPacket {σ : Type} (z : σ) : Packet σ where
  version := 0
  type := 0
  code := 0
  mid := 0
  token := []
  isSet := fun _ => false
  contentFormat := 0
  maxAge := 0
  etag := []
  proxyUri := z
  uriHost := z
  uriPort := 0
  uriPath := z
  observe := 0
  accept := 0
  block2 := ⟨0, 0, 0, 0⟩
  block1 := ⟨0, 0, 0, 0⟩
  size2 := 0
  size1 := 0
  uriQuery := z
  maxMsgSize := 0
  blockwiseTransfer := 0
  custody := 0
  altAddr := z
  holdOff := 0
  badCsm := 0
  payload := z

/-- messaging/coap/signal.c:30-35 `coap_check_signal_message`. -/
def isSignal (code : Nat) : Bool :=
  code == 225 || code == 226 || code == 227 || code == 228 || code == 229

/-- Conversion of `uint32_t` to `int32_t` (messaging/coap/coap.c:993),
two's complement as on all supported compilers. -/
def toI32 (n : Nat) : Int := if n < 2^31 then n else (n : Int) - 2^32

/-- Conversion of `int32_t` to `uint32_t` (argument of
`coap_serialize_int_option` at messaging/coap/coap.c:533). -/
def toU32 (i : Int) : Nat := (i % 2^32).toNat

/-- messaging/coap/coap.c:683-695 `coap_parse_is_valid_content_format_option`;
constants from include/oc_ri.h:125-157. -/
def validContentFormat (cfg : Cfg) (v : Nat) : Bool :=
  v == 10000 || (cfg.oic && v == 60) || (cfg.json && (v == 50 || v == 432))

/-- messaging/coap/coap.c:697-705 `coap_parse_is_valid_accept_option`. -/
def validAccept (cfg : Cfg) (v : Nat) : Bool :=
  validContentFormat cfg v || (cfg.wkcore && v == 40)

/-- messaging/coap/coap.c:613-680 `coap_parse_signal_options` with
`inner = true`; `ref` is the place of the option value. -/
def parseSignal {σ : Type} (p : Packet σ) (num : Nat) (v : List UInt8) (ref : σ) : Nat × Packet σ :=
  if p.code = 225 then
    if num = 2 then
      match parseIntOption v with
      | none => (badOption, p)
      | some n => (noError, { p with maxMsgSize := n })
    else if num = 4 then (noError, { p with blockwiseTransfer := 1 })
    else (noError, p)
  else if p.code = 226 ∨ p.code = 227 then
    if num = 2 then (noError, { p with custody := 1 }) else (noError, p)
  else if p.code = 228 then
    if num = 2 then (noError, { p with altAddr := ref })
    else if num = 4 then
      match parseIntOption v with
      | none => (badOption, p)
      | some n => (noError, { p with holdOff := n })
    else (noError, p)
  else if p.code = 229 then
    if num = 2 then
      match parseIntOption v with
      | none => (badOption, p)
      | some n => if n > 65535 then (badOption, p) else (noError, { p with badCsm := n })
    else (noError, p)
  else (badRequest, p)

/-- The assignments to packet fields made by `coap_oscore_parse_option` for
options whose value is copied (messaging/coap/coap.c:719, 723-724, 742, 773, 783,
793, 802, 889, 984, 993). -/
inductive Upd where
  | none
  | contentFormat (n : Nat)
  | etag (v : List UInt8)
  | accept (n : Nat)
  | block2 (b : Block)
  | block1 (b : Block)
  | size2 (n : Nat)
  | size1 (n : Nat)
  | uriPort (n : Nat)
  | maxAge (n : Nat)
  | observe (i : Int)
  deriving Repr, DecidableEq

/-- Performs an assignment; the block options set their bit themselves
(messaging/coap/options.c:477-491). -/
def Upd.apply {σ : Type} (u : Upd) (p : Packet σ) : Packet σ :=
  match u with
  | .none => p
  | .contentFormat n => { p with contentFormat := n }
  | .etag v => { p with etag := v }
  | .accept n => { p with accept := n }
  | .block2 b => setOpt { p with block2 := b } 23
  | .block1 b => setOpt { p with block1 := b } 27
  | .size2 n => { p with size2 := n }
  | .size1 n => { p with size1 := n }
  | .uriPort n => { p with uriPort := n }
  | .maxAge n => { p with maxAge := n }
  | .observe i => { p with observe := i }

/-- An integer option: refused with status `err` when longer than four bytes
(the tests `< 0` in messaging/coap/coap.c:770, 780, 790, 799, 886, 981, 990). -/
def intUpd (err : Nat) (v : List UInt8) (k : Nat → Nat × Upd) : Nat × Upd :=
  match parseIntOption v with
  | none => (err, .none)
  | some n => k n

/-- messaging/coap/coap.c:713-721 (Content-Format), 722-735 (ETag), 736-744
(Accept), 768-805 (Block2, Block1, Size2, Size1), 806-819 (versions), 953-960
(OSCORE), 884-892 (Uri-Port), 979-996 (Max-Age, Observe), 997-1003 (unknown):
status and assignment. -/
def decodeScalar (cfg : Cfg) (num : Nat) (v : List UInt8) : Nat × Upd :=
  if num = 12 then intUpd unsupportedMedia v fun n =>
    if validContentFormat cfg n then (noError, .contentFormat n) else (unsupportedMedia, .none)
  else if num = 4 then (noError, .etag (v.take 8))
  else if num = 17 then intUpd notAcceptable v fun n =>
    if validAccept cfg n then (noError, .accept n) else (notAcceptable, .none)
  else if num = 23 then intUpd badOption v fun n => (noError, .block2 (blockDecode n))
  else if num = 27 then intUpd badOption v fun n => (noError, .block1 (blockDecode n))
  else if num = 28 then intUpd badOption v fun n => (noError, .size2 n)
  else if num = 60 then intUpd badOption v fun n => (noError, .size1 n)
  else if num = 2053 ∨ num = 2049 then intUpd unsupportedMedia v fun n =>
    if n < 2048 then (unsupportedMedia, .none) else (noError, .none)
  else if num = 9 ∧ cfg.oscore then (badOption, .none)
  else if num = 7 then intUpd badOption v fun n =>
    if n > 65535 then (badOption, .none) else (noError, .uriPort n)
  else if num = 14 then intUpd badOption v fun n => (noError, .maxAge n)
  else if num = 6 then intUpd badOption v fun n => (noError, .observe (toI32 n))
  else if num % 2 = 1 then (badOption, .none)
  else (noError, .none)

/-- The options of `coap_oscore_parse_option` whose value is copied into the
packet (lines as for `decodeScalar`). -/
def parseScalar {σ : Type} (cfg : Cfg) (p : Packet σ) (num : Nat) (v : List UInt8) :
    Nat × Packet σ :=
  let r := decodeScalar cfg num v
  (r.1, r.2.apply p)

/-- messaging/coap/coap.c:909-1006 `coap_oscore_parse_option` with
`inner = outer = true`, `oscore = false`: status, packet and message (changed in
place by `coap_merge_multi_option`).  Simplification: the value is read as a
whole, a range which the caller has checked to lie in the message. -/
def parseOption (cfg : Cfg) (validate : Bool) (mem : List UInt8) (p : Packet Span)
    (num off len : Nat) : Out (Nat × Packet Span × List UInt8) := do
  let v ← sliceChk mem off len
  if cfg.tcp && isSignal p.code then
    let r := parseSignal p num v ⟨off, len⟩
    .ok (r.1, r.2, mem)
  else if num = 11 then
    if validate then .ok (noError, p, mem)
    else do
      let (mem', s) ← mergeMulti mem p.uriPath off len 47
      .ok (noError, { p with uriPath := s }, mem')
  else if num = 15 then
    if validate then .ok (noError, p, mem)
    else do
      let (mem', s) ← mergeMulti mem p.uriQuery off len 38
      .ok (noError, { p with uriQuery := s }, mem')
  else if num = 35 then
    if validate then .ok (noError, p, mem)
    else .ok (noError, { p with proxyUri := ⟨off, len⟩ }, mem)
  else if num = 3 then .ok (noError, { p with uriHost := ⟨off, len⟩ }, mem)
  else
    let r := parseScalar cfg p num v
    .ok (r.1, r.2, mem)

/-- messaging/coap/coap.c:1027-1096: the option loop of
`coap_oscore_parse_options`.  `mem` is the object holding the message, of which
the first `dataLen` bytes are the message.  Every iteration consumes at least
one byte; `fuel` bounds the iterations (running out of it would be `ub`, the
theorems show it does not happen). -/
def optLoop (cfg : Cfg) (validate : Bool) (dataLen : Nat) :
    Nat → List UInt8 → Nat → Nat → Packet Span → Nat → Out (Nat × Packet Span × List UInt8)
  | 0, _, _, _, _, _ => .ub
  | fuel + 1, mem, pos, num, p, lastErr =>
    if pos < dataLen then do
      let b ← Out.get mem pos
      if b &&& 0xF0 = 0xF0 then
        .ok (lastErr, { p with payload := ⟨pos + 1, dataLen - (pos + 1)⟩ }, mem)
      else do
        let (d, l, q) ← readHeader mem pos
        let num := (num + d) % 2^32
        let p := if num ≤ 60 then setOpt p num else p
        if q + l > dataLen then .ok (badRequest, p, mem)
        else do
          let (s, p, mem) ← parseOption cfg validate mem p num q l
          if s ≠ noError then
            if !validate then .ok (s, p, mem)
            else if s = badRequest then .ok (s, p, mem)
            else optLoop cfg validate dataLen fuel mem (q + l) num p (if lastErr < s then s else lastErr)
          else optLoop cfg validate dataLen fuel mem (q + l) num p lastErr
    else .ok (lastErr, p, mem)

/-- messaging/coap/coap.c:1008-1097 `coap_oscore_parse_options`, from position
`pos` on. -/
def parseOptions (cfg : Cfg) (validate : Bool) (mem : List UInt8) (dataLen pos : Nat)
    (p : Packet Span) : Out (Nat × Packet Span × List UInt8) :=
  if dataLen > 4294967295 then .ok (badRequest, p, mem)
  else optLoop cfg validate dataLen (dataLen + 1) mem pos 0 { p with isSet := fun _ => false } noError

/-- messaging/coap/coap.c:1456-1506 `coap_udp_parse_message`.  `p0` is the
caller's packet, returned unchanged for an oversized message.  Simplification:
for a refused token length the packet keeps an empty token. -/
def udpParse (cfg : Cfg) (validate : Bool) (mem : List UInt8) (dataLen : Nat) (p0 : Packet Span) :
    Out (Nat × Packet Span × List UInt8) :=
  if dataLen > 65535 then .ok (badRequest, p0, mem)
  else do
    let b0 ← Out.get mem 0
    let b1 ← Out.get mem 1
    let b2 ← Out.get mem 2
    let b3 ← Out.get mem 3
    let tkl := b0.toNat &&& 0x0F
    let p : Packet Span := { zeroPacket (⟨0, 0⟩ : Span) with
      version := (b0.toNat &&& 0xC0) >>> 6
      type := (b0.toNat &&& 0x30) >>> 4
      code := b1.toNat
      mid := (b2.toNat <<< 8) ||| b3.toNat }
    if p.version ≠ 1 then .ok (badRequest, p, mem)
    else if tkl > 8 then .ok (badRequest, p, mem)
    else do
      let tok ← sliceChk mem 4 tkl
      parseOptions cfg validate mem dataLen (4 + tkl) { p with token := tok }

/-- messaging/coap/coap.c:1204-1207: big-endian number made of the extended
length bytes of the TCP header.  Simplification: the bytes are disjoint, so `|=`
is addition. -/
def tcpExt (mem : List UInt8) : Nat → Nat → Out Nat
  | _, 0 => .ok 0
  | i, n + 1 => do
    let b ← Out.get mem i
    let r ← tcpExt mem (i + 1) n
    .ok (b.toNat <<< (8 * n) + r)

/-- messaging/coap/coap.c:1184-1224 `coap_tcp_parse_message_length`: `none` for
`false`, otherwise message length and number of extended length bytes.  The
`assert(data_size > 0)` is a precondition (`ub` when it fails). -/
def tcpParseLength (mem : List UInt8) (dataSize : Nat) : Out (Option (Nat × Nat)) :=
  if dataSize = 0 then .ub
  else do
    let b ← Out.get mem 0
    let tcpLen := (0xF0 &&& b.toNat) >>> 4
    if tcpLen < 13 then .ok (some (tcpLen, 0))
    else
      let ext := 1 <<< (tcpLen - 13)
      if dataSize < ext + 1 then .ok none
      else do
        let l ← tcpExt mem 1 ext
        let dflt := if tcpLen = 13 then 13 else if tcpLen = 14 then 269 else 65805
        .ok (some (l + dflt, ext))

/-- messaging/coap/coap.c:1510-1526 `coap_tcp_get_packet_size`, `none` for -1. -/
def tcpPacketSize (mem : List UInt8) (dataSize : Nat) : Out (Option Nat) := do
  let r ← tcpParseLength mem dataSize
  match r with
  | none => .ok none
  | some (l, ext) => do
    let b ← Out.get mem 0
    .ok (some (2 + ext + (0x0F &&& b.toNat) + l))

/-- messaging/coap/coap.c:1528-1580 `coap_tcp_parse_message`. -/
def tcpParse (cfg : Cfg) (validate : Bool) (mem : List UInt8) (dataLen : Nat) (p0 : Packet Span) :
    Out (Nat × Packet Span × List UInt8) :=
  if dataLen > 4294967295 then .ok (badRequest, p0, mem)
  else do
    let r ← tcpParseLength mem dataLen
    match r with
    | none => .ok (badRequest, zeroPacket ⟨0, 0⟩, mem)
    | some (_, ext) => do
      let b0 ← Out.get mem 0
      let c ← Out.get mem (1 + ext)
      let tkl := b0.toNat &&& 0x0F
      let p : Packet Span := { zeroPacket (⟨0, 0⟩ : Span) with type := 1, code := c.toNat }
      if tkl > 8 then .ok (badRequest, p, mem)
      else do
        let tok ← sliceChk mem (2 + ext) tkl
        parseOptions cfg validate mem dataLen (2 + ext + tkl) { p with token := tok }

/-- A string of the application given by pointer and length: `mem` is the object
from the pointer on (messaging/coap/coap_internal.h:116-181). -/
structure CStr where
  mem : List UInt8
  len : Nat
  deriving Repr, DecidableEq

/-- State of the option serializers: `current_number`, `option_length`, bytes
written (messaging/coap/coap.c:497-499). -/
structure Ser where
  cur : Nat
  len : Nat
  out : List UInt8
  deriving Repr, DecidableEq

/-- messaging/coap/coap.c:78-89 `COAP_SERIALIZE_INT_OPTION` (and, with the
encoded value, 123-140 `COAP_SERIALIZE_BLOCK_OPTION`). -/
def stepInt {σ : Type} (p : Packet σ) (n v : Nat) (s : Ser) : Ser :=
  if p.isSet n then
    let r := serIntOption n s.cur v
    ⟨n, s.len + r.1, s.out ++ r.2⟩
  else s

/-- messaging/coap/coap.c:109-121 `COAP_SERIALIZE_STRING_OPTION` (and 91-107
`COAP_SERIALIZE_BYTE_OPTION`, without splitting). -/
def stepStr {σ : Type} (p : Packet σ) (n : Nat) (str : CStr) (split : UInt8) (s : Ser) : Out Ser :=
  if p.isSet n then do
    let r ← serArrayOption n s.cur str.mem str.len split
    .ok ⟨n, s.len + r.1, s.out ++ r.2⟩
  else .ok s

/-- messaging/coap/coap.c:455-489: version announced for a content format by
`coap_serialize_accept_option` and `coap_serialize_content_format_option`;
`none` when no option is written. -/
def formatVersion (cfg : Cfg) (fmt : Nat) : Option Nat :=
  if fmt = 10000 then some 2048
  else if cfg.oic ∧ fmt = 60 then some 2112
  else none

/-- messaging/coap/coap.c:588-595: `coap_serialize_accept_option` and the update
of `current_number`, which happens also when nothing was written. -/
def stepAcceptVer (cfg : Cfg) (p : Packet CStr) (s : Ser) : Ser :=
  if p.isSet 17 then
    match formatVersion cfg p.accept with
    | some v =>
      let r := serIntOption 2049 s.cur v
      ⟨2049, s.len + r.1, s.out ++ r.2⟩
    | none => ⟨2049, s.len, s.out⟩
  else s

/-- messaging/coap/coap.c:597-603. -/
def stepFormatVer (cfg : Cfg) (p : Packet CStr) (s : Ser) : Ser :=
  if p.isSet 12 then
    match formatVersion cfg p.contentFormat with
    | some v =>
      let r := serIntOption 2053 s.cur v
      ⟨s.cur, s.len + r.1, s.out ++ r.2⟩
    | none => s
  else s

/-- messaging/coap/coap.c:406-452 `coap_serialize_signal_options`.  In the
`Bert` and `Custody` options the macro argument `x - packet->x` makes the value
zero. -/
def serSignal (p : Packet CStr) : Out Ser :=
  let s0 : Ser := ⟨0, 0, []⟩
  if p.code = 225 then
    let s := stepInt p 2 p.maxMsgSize s0
    .ok (if p.blockwiseTransfer ≠ 0 then stepInt p 4 0 s else s)
  else if p.code = 226 ∨ p.code = 227 then
    .ok (if p.custody ≠ 0 then stepInt p 2 0 s0 else s0)
  else if p.code = 228 then do
    let s ← stepStr p 2 p.altAddr 0 s0
    .ok (stepInt p 4 p.holdOff s)
  else if p.code = 229 then .ok (stepInt p 2 p.badCsm s0)
  else .ok s0

/-- messaging/coap/coap.c:492-611 `coap_serialize_options` with
`inner = outer = true`, `oscore = false`. -/
def serOptions (cfg : Cfg) (p : Packet CStr) : Out Ser :=
  if cfg.tcp && isSignal p.code then serSignal p
  else do
    let s ← stepStr p 3 p.uriHost 0 ⟨0, 0, []⟩
    let s ← stepStr p 4 ⟨p.etag, p.etag.length⟩ 0 s
    let s := stepInt p 6 (toU32 p.observe) s
    let s := stepInt p 7 p.uriPort s
    let s ← stepStr p 11 p.uriPath 47 s
    let s := stepInt p 12 p.contentFormat s
    let s := stepInt p 14 p.maxAge s
    let s ← stepStr p 15 p.uriQuery 38 s
    let s := stepInt p 17 p.accept s
    let s := stepInt p 23 (blockEncode p.block2.num p.block2.more p.block2.size) s
    let s := stepInt p 27 (blockEncode p.block1.num p.block1.more p.block1.size) s
    let s := stepInt p 28 p.size2 s
    let s ← stepStr p 35 p.proxyUri 0 s
    let s := stepInt p 60 p.size1 s
    .ok (stepFormatVer cfg p (stepAcceptVer cfg p s))

/-- messaging/coap/coap.c:1282-1296 `coap_check_header_size`; `maxHdr` is
`COAP_MAX_HEADER_SIZE` of the port. -/
def checkHeaderSize (maxHdr headerSize bufferSize : Nat) : Bool :=
  if headerSize > maxHdr then false
  else if bufferSize > 0 ∧ headerSize > bufferSize then false
  else true

/-- messaging/coap/coap.c:1267-1280 `coap_udp_set_header_fields`, with
`version = 1` set at 1337. -/
def udpHeader {σ : Type} (p : Packet σ) : List UInt8 :=
  [UInt8.ofNat ((0xC0 &&& (1 <<< 6)) ||| (0x30 &&& (p.type <<< 4)) ||| (0x0F &&& p.token.length)),
   UInt8.ofNat p.code, UInt8.ofNat (p.mid >>> 8), UInt8.ofNat p.mid]

/-- messaging/coap/coap.c:1131-1182 `coap_tcp_compute_message_length`: header
length nibble, number of extended bytes, extended length. -/
def tcpComputeLength (optionLength payloadLen : Nat) : Nat × Nat × Nat :=
  let total := optionLength + (if payloadLen > 0 then 1 + payloadLen else 0)
  if total < 13 then (total, 0, 0)
  else if total < 269 then (13, 1, total - 13)
  else if total < 65805 then (14, 2, total - 269)
  else (15, 4, total - 65805)

/-- messaging/coap/coap.c:1115-1118: the extended length, most significant byte
first. -/
def tcpExtBytes (ext : Nat) : Nat → List UInt8
  | 0 => []
  | n + 1 => UInt8.ofNat (ext >>> (8 * n)) :: tcpExtBytes ext n

/-- messaging/coap/coap.c:1101-1129 `coap_tcp_set_header_fields`. -/
def tcpHeader {σ : Type} (p : Packet σ) (len nExt ext : Nat) : List UInt8 :=
  UInt8.ofNat ((0xF0 &&& (len <<< 4)) ||| (0x0F &&& p.token.length))
    :: (tcpExtBytes ext nExt ++ [UInt8.ofNat p.code])

/-- `size_t` subtraction on a 64 bit platform (messaging/coap/coap.c:1396). -/
def subSize (a b : Nat) : Nat := if b ≤ a then a - b else a + 2^64 - b

/-- messaging/coap/coap.c:1330-1428 `coap_oscore_serialize_message` as called by
`coap_serialize_message` (1448-1454): `none` when 0 is returned, otherwise the
bytes stored at the start of `buffer`.  `tcp` is
`transport_type == COAP_TRANSPORT_TCP`.  The first call of `serOptions` is the
sizing pass (1304-1305), whose count must equal what is written (assertion at
1398). -/
def serialize (cfg : Cfg) (maxHdr : Nat) (tcp : Bool) (p : Packet CStr) (bufferSize : Nat) :
    Out (Option (List UInt8)) := do
  let pass ← serOptions cfg p
  let (len, nExt, ext) := if tcp then tcpComputeLength pass.len p.payload.len else (0, 0, 0)
  let tokenLocation := if tcp then 2 + nExt else 4
  let hdrSize := pass.len + p.token.length + tokenLocation
  if !checkHeaderSize maxHdr hdrSize bufferSize then .ok none
  else
    let hdr := if tcp then tcpHeader p len nExt ext else udpHeader p
    if p.code = 0 then .ok (some hdr)
    else do
      let s ← serOptions cfg p
      let head := hdr ++ p.token ++ s.out
      if hdrSize ≠ head.length then .ub
      else
        let remaining := subSize bufferSize hdrSize
        if p.payload.len > 0 then
          if remaining < (p.payload.len + 1) % 2^32 then .ok none
          else do
            let pl ← sliceChk p.payload.mem 0 p.payload.len
            .ok (some (head ++ 0xFF :: pl))
        else .ok (some head)

end Verif.CoapMsg
