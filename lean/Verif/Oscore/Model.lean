import Verif.Common
import Verif.Bytes
import Verif.Coap.Model

/-!
Model of the OSCORE layer: partial IVs, AEAD nonces, the OSCORE option, the
recognition of OSCORE messages, the replay window and the sender sequence
number (messaging/coap/oscore.c, security/oc_oscore_crypto.c,
security/oc_oscore_engine.c, security/oc_oscore_context.c).

Not modelled: the AEAD and the key derivation (mbedtls), the inner options, and
the AAD, which is built by tinycbor.
-/

namespace Verif.Oscore

/-- messaging/coap/oscore_constants.h:24 `OSCORE_PIV_LEN`. -/
def pivLen : Nat := 5
/-- messaging/coap/oscore_constants.h:25 `OSCORE_CTXID_LEN`. -/
def ctxIdLen : Nat := 7
/-- messaging/coap/oscore_constants.h:29-30 `OSCORE_IDCTX_LEN`. -/
def idCtxLen : Nat := 16
/-- messaging/coap/oscore_constants.h:23 `OSCORE_AEAD_NONCE_LEN`. -/
def nonceLen : Nat := 13
/-- messaging/coap/oscore_constants.h:36 `OSCORE_REPLAY_WINDOW_SIZE`. -/
def winSize : Nat := 32
/-- messaging/coap/oscore_constants.h:42 `OSCORE_SSN_WRITE_FREQ_K`. -/
def writeFreq : Nat := 32
/-- messaging/coap/oscore_constants.h:43 `OSCORE_SSN_PAD_F`. -/
def padF : Nat := writeFreq * 4

/-! ### Partial IVs -/

/-- The `uint64_t` whose representation in memory on a little-endian machine
are the given bytes (the access through `char *` in
messaging/coap/oscore.c:80 and 117-125). -/
def leWord (m : List UInt8) : BitVec 64 :=
  m.foldr (fun x acc => (acc <<< 8) ||| x.toBitVec.setWidth 64) 0

/-- The bytes in memory of a `uint64_t` on a little-endian machine
(messaging/coap/oscore.c:80 and 117-125). -/
def wordBytes (w : BitVec 64) : List UInt8 :=
  (List.range 8).map fun i => ⟨(w >>> (8 * i)).setWidth 8⟩

/-- messaging/coap/oscore.c:86-90 and 111-113: the byte order is reversed in
three steps with masks and shifts.  Simplification: only the little-endian
branch is modelled (the test `*(char *)&_botest == 1` is true). -/
def bswap (w : BitVec 64) : BitVec 64 :=
  let w := (w &&& 0x00ff00ff00ff00ff#64) <<< 8 ||| (w &&& 0xff00ff00ff00ff00#64) >>> 8
  let w := (w &&& 0x0000ffff0000ffff#64) <<< 16 ||| (w &&& 0xffff0000ffff0000#64) >>> 16
  (w &&& 0x00000000ffffffff#64) <<< 32 ||| (w &&& 0xffffffff00000000#64) >>> 32

/-- messaging/coap/oscore.c:73-94 `oscore_read_piv`: the bytes are copied to
the end of a zeroed `uint64_t`, then the byte order is reversed.  More than 8
bytes would be written outside of the word. -/
def readPiv (piv : List UInt8) : Out (BitVec 64) :=
  if piv.length > 8 then .ub
  else .ok (bswap (leWord (List.replicate (8 - piv.length) 0 ++ piv)))

/-- messaging/coap/oscore.c:96-128 `oscore_store_piv`: the partial IV (the
first `*piv_len` bytes of `piv`). -/
def storePiv (ssn : BitVec 64) : List UInt8 :=
  if ssn = 0#64 then [0]
  else ((wordBytes (bswap ssn)).drop (8 - pivLen)).dropWhile (· == 0)

/-! ### Nonces -/

/-- security/oc_oscore_crypto.c:187-190: the id is copied in front of the last
five bytes. -/
def putId (n id : List UInt8) : Out (List UInt8) :=
  if id.length > 0 then
    if id.length + 5 > nonceLen then .ub
    else writeChk n (nonceLen - 5 - id.length) id
  else .ok n

/-- security/oc_oscore_crypto.c:156-197 `oc_oscore_AEAD_nonce` with
`nonce_len` 13; every store is checked against the nonce buffer. -/
def nonce (id piv civ : List UInt8) : Out (List UInt8) := do
  let n := List.replicate nonceLen (0 : UInt8)
  if piv.length > nonceLen then .ub else
  let n ← writeChk n (nonceLen - piv.length) piv
  let n ← putId n id
  let n := n.set 0 (UInt8.ofNat id.length)
  if civ.length < nonceLen then .ub
  else .ok (List.zipWith (· ^^^ ·) n civ)

/-! ### The OSCORE option -/

/-- The OSCORE fields of `coap_packet_t` (messaging/coap/coap_internal.h:170-178, under
`OC_OSCORE`): each byte array is given by the bytes below its length. -/
structure Pkt where
  flags : UInt8 := 0
  piv : List UInt8 := []
  kidCtx : List UInt8 := []
  kid : List UInt8 := []
  deriving Repr, DecidableEq

/-- messaging/coap/oscore.c:196-226 `coap_set_header_oscore`; `request` is the
test `packet->code <= OC_FETCH`.  A copy that does not fit into the array of
the packet (messaging/coap/coap_internal.h:172-176) is undefined. -/
def setHeader (p : Pkt) (request : Bool) (piv kid kidCtx : List UInt8) : Out Pkt := do
  if piv.length > pivLen ∨ kid.length > ctxIdLen ∨ kidCtx.length > idCtxLen then .ub else
  let f : UInt8 := UInt8.ofNat piv.length
  let f := if request then f ||| ((1 : UInt8) <<< 3) else f
  let f := if kidCtx.length > 0 then f ||| ((1 : UInt8) <<< 4) else f
  .ok { flags := f
        piv := if piv.length > 0 then piv else p.piv
        kid := if kid.length > 0 then kid else p.kid
        kidCtx := if kidCtx.length > 0 then kidCtx else p.kidCtx }

/-- messaging/coap/oscore.c:330-338: `option_length` computed by
`coap_serialize_oscore_option`. -/
def optLength (p : Pkt) : Nat :=
  p.piv.length + p.kid.length + p.kidCtx.length
    + (if p.kidCtx.length > 0 then 1 else 0) + (if p.flags > 0 then 1 else 0)

/-- messaging/coap/oscore.c:349-383: the value written by
`coap_serialize_oscore_option`. -/
def optValue (p : Pkt) : List UInt8 :=
  if p.flags ≠ 0 then
    p.flags :: ((if p.piv.length > 0 then p.piv else [])
      ++ (if p.kidCtx.length > 0 then UInt8.ofNat p.kidCtx.length :: p.kidCtx else [])
      ++ (if p.kid.length > 0 then p.kid else []))
  else []

/-- messaging/coap/oscore.c:326-389 `coap_serialize_oscore_option`: returned
count and bytes written; option number 9. -/
def serialize (current : Nat) (p : Pkt) : Nat × List UInt8 :=
  let h := Coap.setOptionHeader (Coap.optDelta 9 current) (optLength p)
  (optLength p + h.1, h.2 ++ optValue p)

/-- messaging/coap/oscore.c:262-264 and similar: copy of `n` bytes from the
current position, which must lie inside the option (a position outside of it is
`ub` here, although the C code may still be inside the receive buffer), to an
array of `cap` bytes. -/
def copyIn (opt : List UInt8) (n cap : Nat) : Out (List UInt8 × List UInt8) :=
  if n > cap then .ub
  else if n > opt.length then .ub
  else .ok (opt.take n, opt.drop n)

/-- messaging/coap/oscore.c:257-268: the partial IV. -/
def takePiv (n : Nat) (rest : List UInt8) : Out (List UInt8 × List UInt8) :=
  if n > 0 then copyIn rest n pivLen else .ok ([], rest)

/-- messaging/coap/oscore.c:292-323: the kid, and the packet that is stored;
`none` for the return value -1. -/
def finish (flags : UInt8) (piv kidCtx rest : List UInt8) : Option Pkt :=
  if flags &&& 0x08 ≠ 0 then
    if rest.length > ctxIdLen then none else some ⟨flags, piv, kidCtx, rest⟩
  else some ⟨flags, piv, kidCtx, []⟩

/-- messaging/coap/oscore.c:270-323: the kid context and what follows. -/
def parseCtx (flags : UInt8) (piv rest : List UInt8) : Out (Option Pkt) :=
  if flags &&& 0x10 ≠ 0 then
    match rest with
    | [] => .ub
    | s :: rest =>
      if s.toNat > idCtxLen then .ok none
      else (copyIn rest s.toNat idCtxLen).bind fun r => .ok (finish flags piv r.1 r.2)
  else .ok (finish flags piv [] rest)

/-- messaging/coap/oscore.c:228-324 `coap_parse_oscore_option`; `none` for the
return value -1 (the packet is not changed). -/
def parse (p : Pkt) (opt : List UInt8) : Out (Option Pkt) :=
  match opt with
  | [] => .ok (some p)
  | flags :: rest =>
    (takePiv (flags &&& 0x07).toNat rest).bind fun r => parseCtx flags r.1 r.2

/-! ### Recognition of OSCORE messages -/

/-- messaging/coap/oscore.c:467-506: the loop over the options; `fuel` bounds
the number of iterations (each one moves forward, see `isOscore`).  Reads
outside of the message are `ub`. -/
def optScan (mem : List UInt8) : Nat → Nat → Nat → Out Bool
  | 0, _, _ => .ok false
  | fuel + 1, pos, number =>
    if pos < mem.length then do
      let b ← Out.get mem pos
      if b &&& 0xF0 = 0xF0 then .ok false else do
        let (d, l, p) ← Coap.readHeader mem pos
        if (number + d) % 2^32 = 9 then .ok true
        else optScan mem fuel (p + l) ((number + d) % 2^32)
    else .ok false

/-- messaging/coap/oscore.c:433-509 `oscore_is_oscore_message` for a datagram
(`COAP_HEADER_LEN` 4); the token length is not limited to 8. -/
def isOscore (mem : List UInt8) : Out Bool := do
  let b ← Out.get mem 0
  optScan mem (mem.length + 1) (4 + (b &&& 0x0F).toNat) 0

/-! ### The replay window -/

/-- `rwin` and `rwin_idx` of `oc_oscore_context_t`
(security/oc_oscore_context_internal.h); all zero after `oc_memb_alloc`. -/
structure Win where
  rwin : List Nat
  idx : Nat
  deriving Repr, DecidableEq

/-- security/oc_oscore_context.c:150: a new context (also after every restart)
has a window of zeros. -/
def Win.init : Win := ⟨List.replicate winSize 0, 0⟩

/-- security/oc_oscore_engine.c:52-68 `check_if_replayed_request`: `true` if
the request is refused. -/
def check (w : Win) (piv : Nat) : Bool × Win :=
  let fresh : Bool × Win :=
    let i := (w.idx + 1) % winSize
    (false, ⟨w.rwin.set i piv, i⟩)
  if piv = 0 ∧ w.rwin[0]? = some 0 ∧ w.rwin[winSize - 1]? = some 0 then fresh
  else if w.rwin.contains piv then (true, w)
  else fresh

/-- A received protected request as the engine sees it: the value of its partial
IV, or `none` if the option has no partial IV, and whether the decryption with
the key of the context succeeds. -/
structure Req where
  piv : Option Nat
  auth : Bool
  deriving Repr, DecidableEq

/-- security/oc_oscore_engine.c:187-265: the part of `oscore_parse_message` that
decides whether a request for a known context is accepted.  The window is
updated at line 194, the decryption follows at line 256; a request without
partial IV is not checked (line 188). -/
def accept (w : Win) (r : Req) : Bool × Win :=
  match r.piv with
  | none => (r.auth, w)
  | some p => (!(check w p).1 && r.auth, (check w p).2)

/-- Requests received one after the other: which of them are accepted. -/
def accepts (w : Win) : List Req → List Bool
  | [] => []
  | r :: rs => (accept w r).1 :: accepts (accept w r).2 rs

/-- The window after a sequence of requests. -/
def winAfter (w : Win) : List Req → Win
  | [] => w
  | r :: rs => winAfter (accept w r).2 rs

/-! ### The sender sequence number -/

/-- State of one sender context and of the stored credential.  `ssn` is the
number in memory (`none` while the device is down), `link` is the number in the
context to which the credential points if that is another one
(security/oc_cred.c:1405-1414), `stored` the number in storage, `pending` a
scheduled `dump_cred`, `used` (ghost) the numbers used for messages. -/
structure St where
  ssn : Option Nat
  link : Option Nat := none
  stored : Nat
  pending : Bool := false
  used : List Nat := []
  deriving Repr, DecidableEq

/-- What can happen to a sender context. -/
inductive Op where
  /-- a unicast request or a response is protected -/
  | send
  /-- a request is refused because it has no client callback -/
  | refused
  /-- a multicast request is protected -/
  | mcast
  /-- the scheduled save runs; `ok = false` if the write fails -/
  | save (ok : Bool)
  /-- the credentials are saved for another reason -/
  | saveOther (ok : Bool)
  /-- the device loses power -/
  | crash
  /-- the device starts and loads the credentials -/
  | boot
  /-- the same credential is provisioned again -/
  | reprovision
  deriving Repr, DecidableEq

/-- security/oc_cred.c:899-922 and security/oc_oscore_engine.c:44-50: the number
that is written to storage is that of the context of the credential.
Simplification: the write is atomic. -/
def doSave (s : St) (ok : Bool) : St :=
  match s.ssn with
  | none => s
  | some n => if ok then { s with stored := s.link.getD n } else s

/-- One event.  security/oc_oscore_engine.c:626-630, 682-687 (number used, then
incremented), 638-641 (refused: incremented and no save is scheduled), 714-719
(save scheduled), 404-408 (multicast: no save scheduled), 44-50 (the callback
is done once); security/oc_oscore_context.c:157-163 (restart), security/oc_cred.c:
1449-1451 (save scheduled after loading), 690-695 and 1404-1415 (the same
credential again: a second context with number 0 is linked to it, while
`oc_oscore_find_context_by_UUID` goes on finding the first one).
Simplification: the numbers do not wrap at 2^64. -/
def step (s : St) : Op → St
  | .send =>
    match s.ssn with
    | none => s
    | some n => { s with ssn := some (n + 1), used := n :: s.used,
                         pending := s.pending || ((n + 1) % writeFreq == 0) }
  | .refused =>
    match s.ssn with
    | none => s
    | some n => { s with ssn := some (n + 1) }
  | .mcast =>
    match s.ssn with
    | none => s
    | some n => { s with ssn := some (n + 1), used := n :: s.used }
  | .save ok =>
    match s.ssn with
    | none => s
    | some _ => if s.pending then { doSave s ok with pending := false } else s
  | .saveOther ok => doSave s ok
  | .crash => { s with ssn := none, link := none, pending := false }
  | .boot =>
    match s.ssn with
    | some _ => s
    | none => { s with ssn := some (s.stored + (writeFreq + padF)), pending := true }
  | .reprovision =>
    match s.ssn with
    | none => s
    | some _ => { s with link := some 0 }

/-- A history. -/
def run (s : St) (ops : List Op) : St := ops.foldl step s

/-- A newly provisioned context: number 0, stored with the credential
(security/oc_cred.c:1189, 1405). -/
def St.init : St := { ssn := some 0, stored := 0 }

end Verif.Oscore
