import Verif.Common

/-!
The encoder of payloads.  There is one encoder in the library; answers, requests,
multicast updates and stored records are all encoded with it, each into memory of
its own.  A request with a payload is made in two steps (`oc_init_post`, the calls
that encode, `oc_do_post`) that are held together by global variables.

Modelled from api/oc_client_api.c, api/oc_rep.c, api/oc_rep_encode.c,
api/oc_server_api.c, api/oc_ri.c, api/oc_blockwise.c and api/oc_storage.c, as built
with OC_BLOCK_WISE, OC_DYNAMIC_ALLOCATION, OC_TCP, OC_OSCORE and OC_JSON_ENCODER,
without OC_APP_DATA_BUFFER_POOL, OC_APP_DATA_STORAGE_BUFFER and OC_SPEC_VER_OIC.
-/

namespace Verif.Encode

/-- Byte strings (`uint8_t *` with a length; modelling convention). -/
abbrev Bytes := List UInt8

/-- Encodings (`oc_rep_encoder_type_t`, include/oc_rep.h; the CRC encoder is left
out, it encodes no messages, api/oc_rep_encode.c:228-233). -/
inductive Fmt where
  | cbor
  | json
  deriving DecidableEq, Repr

/-- The values of the Accept and Content-Format options that the code
distinguishes (`oc_content_format_t`, include/oc_ri.h): vnd.ocf+cbor, JSON and
any `other` registered number.  Plain CBOR counts as vnd.ocf+cbor, TD+JSON as
JSON. -/
inductive Cf where
  | cbor
  | json
  | other (n : Nat)
  deriving DecidableEq, Repr

/-- The sizes of the build and what one call of the encoding functions
(`oc_rep_set_text_string`, …) adds to the payload in each encoding.  Values are
numbered; tinycbor and the JSON encoder (api/oc_rep_encode_cbor.c,
api/oc_rep_encode_json.c) are a parameter.  `block`, `minApp`, `maxApp`:
`OC_BLOCK_SIZE`, `OC_MIN_APP_DATA_SIZE`, `OC_MAX_APP_DATA_SIZE`
(port/oc_connectivity.h:45-114). -/
structure Cfg where
  enc : Fmt → Nat → Bytes
  block : Nat
  minApp : Nat
  maxApp : Nat

/-- A piece of memory that payloads are encoded into: not freed yet, its size and
the bytes written so far; the bytes after them are not initialised
(`malloc`, api/oc_blockwise.c:76-79, api/oc_storage.c:85).  Messages are pieces of
memory too; only their payload part is modelled. -/
structure Buf where
  live : Bool
  size : Nat
  data : Bytes
  deriving DecidableEq, Repr

/-- The encoder (`g_rep_encoder` and `g_err`, api/oc_rep_encode.c:40-118): the
memory it writes to, its size and the size up to which it may be enlarged, whether
it may be enlarged, the position, whether something did not fit, and the encoding.
No memory: the encoder was not used yet. -/
structure Enc where
  buf : Option Nat
  size : Nat
  max : Nat
  realloc : Bool
  off : Nat
  err : Bool
  fmt : Fmt
  deriving DecidableEq, Repr

/-- Methods of requests (`oc_method_t`, include/oc_ri.h); DELETE is like GET. -/
inductive Method where
  | get
  | post
  | put
  deriving DecidableEq, Repr

/-- A request of the client: method, endpoint, whether that is a TCP endpoint,
path (a number) and the quality of service (api/oc_client_api.c:433-534). -/
structure Req where
  m : Method
  ep : Nat
  tcp : Bool
  uri : Nat
  con : Bool
  deriving DecidableEq, Repr

/-- A request received: GET or not and the Accept option
(api/oc_ri.c:1714-1717). -/
structure Rq where
  id : Nat
  get : Bool
  accept : Option Cf
  deriving DecidableEq, Repr

/-- The contents of a payload: bytes that were written, or memory that was never
written. -/
inductive Body where
  | bytes (b : Bytes)
  | uninit (n : Nat)
  deriving DecidableEq, Repr

/-- What leaves the device or goes to its storage: a request with its path,
endpoint, Accept, payload and format and whether it is confirmable; a multicast
update; an answer; a stored record. -/
inductive Msg where
  | request (m : Method) (ep uri : Nat) (con : Bool) (accept : Cf) (payload : Option (Body × Cf))
  | update (uri : Nat) (payload : Body) (cf : Cf)
  | response (rq : Nat) (ok : Bool) (payload : Option (Body × Cf))
  | stored (name : Nat) (payload : Body)
  deriving DecidableEq, Repr

/-- A client callback as far as it matters here: its request and the request
buffer that points to it (`oc_client_cb_t`, api/client/oc_client_cb_internal.h;
`client_cb` of api/oc_client_api.c:260). -/
structure Cb where
  live : Bool
  req : Req
  rbuf : Option Nat
  deriving DecidableEq, Repr

/-- The answer being made: the memory of the response state, the request, the
length (`none` before an answer was given; 2^32-1 after the encoder failed), the
Content-Format and whether the status is a success (`oc_response_buffer_t`,
api/oc_ri.c:1751-1762). -/
structure Cur where
  rq : Rq
  buf : Nat
  len : Nat
  cf : Option Cf
  ok : Bool
  deriving DecidableEq, Repr

/-- The state: memory, the encoder, the client callbacks, the request in
preparation (`g_dispatch.client_cb`, api/oc_client_api.c:55-63), its packet
(`g_request.packet`: method, path, endpoint, Accept) and buffer
(`g_request.buffer` with its number of references, 65-73), the multicast update in
preparation (75-76), the answer being made and everything that left. -/
structure St where
  mem : Nat → Buf
  next : Nat
  enc : Enc
  cbs : Nat → Cb
  ncb : Nat
  disp : Option Nat
  pkt : Req
  acc : Cf
  rbuf : Option Nat
  ref : Nat → Bool
  upd : Option Nat
  cur : Option Cur
  out : List Msg

/-- Update of one place of a table (`*ptr = v`; modelling helper). -/
def put {α : Type} (f : Nat → α) (i : Nat) (a : α) : Nat → α := fun j => if j = i then a else f j

/-- The state after initialisation (api/oc_client_api.c:60-77,
api/oc_rep_encode.c:40-60). -/
def init : St :=
  { mem := fun _ => ⟨false, 0, []⟩, next := 0, enc := ⟨none, 0, 0, false, 0, false, .cbor⟩,
    cbs := fun _ => ⟨false, ⟨.get, 0, false, 0, false⟩, none⟩, ncb := 0, disp := none,
    pkt := ⟨.get, 0, false, 0, false⟩, acc := .cbor, rbuf := none, ref := fun _ => false,
    upd := none, cur := none, out := [] }

/-- `malloc` of `n` bytes that succeeds (api/oc_blockwise.c:76, api/oc_storage.c:85,
api/oc_message.c); failing allocations are left out. -/
def alloc (n : Nat) (s : St) : Nat × St :=
  (s.next, { s with mem := put s.mem s.next ⟨true, n, []⟩, next := s.next + 1 })

/-- `free` (api/oc_blockwise.c:124-126, api/oc_storage.c:96-104); freeing twice is
undefined. -/
def free (i : Nat) (s : St) : Out St :=
  if (s.mem i).live then .ok { s with mem := put s.mem i { s.mem i with live := false } } else .ub

/-- `oc_rep_new_v1` (api/oc_rep.c:53-58): memory of a fixed size; the encoding is
kept. -/
def newFixed (i n : Nat) (s : St) : St :=
  { s with enc := ⟨some i, n, n, false, 0, false, s.enc.fmt⟩ }

/-- `oc_rep_new_realloc_v1` (api/oc_rep.c:69-75): memory that is enlarged when
needed; the encoding is kept. -/
def newGrow (i n m : Nat) (s : St) : St :=
  { s with enc := ⟨some i, n, m, true, 0, false, s.enc.fmt⟩ }

/-- The size after enlarging by `needed` bytes (`rep_buffer_realloc`,
api/oc_rep_encode.c:130-159). -/
def grown (size max needed : Nat) : Nat :=
  if 2 * (size + needed) < max / 4 then size + (needed + (size + needed)) else max

/-- Bytes `d` written at position `off` (`memcpy` of the encoders; modelling
helper). -/
def write (off : Nat) (d : Bytes) (b : Buf) : Buf :=
  { b with data := b.data.take off ++ d ++ b.data.drop (off + d.length) }

/-- One call of an encoding function (`oc_rep_encode_…`,
api/oc_rep_encode.c:440-770 with 130-159): the bytes are written when they fit,
the memory is enlarged first when it may be, else the failure is kept in `g_err`.
After a failure nothing is written any more.  Writing to memory that was freed is
undefined. -/
def encode (c : Cfg) (v : Nat) (s : St) : Out St :=
  let d := c.enc s.enc.fmt v
  if s.enc.err then .ok s
  else if s.enc.off + d.length ≤ s.enc.size then
    match s.enc.buf with
    | none => if d = [] then .ok s else .ub
    | some i =>
      if !(s.mem i).live then .ub
      else .ok { s with mem := put s.mem i (write s.enc.off d (s.mem i)),
                        enc := { s.enc with off := s.enc.off + d.length } }
  else if s.enc.realloc && decide (s.enc.off + d.length ≤ s.enc.max) then
    match s.enc.buf with
    | none => .ub
    | some i =>
      if !(s.mem i).live then .ub
      else
        let n := grown s.enc.size s.enc.max (s.enc.off + d.length - s.enc.size)
        .ok { s with mem := put s.mem i { write s.enc.off d (s.mem i) with size := n },
                     enc := { s.enc with off := s.enc.off + d.length, size := n } }
  else .ok { s with enc := { s.enc with err := true } }

/-- Several calls of encoding functions. -/
def encodes (c : Cfg) : List Nat → St → Out St
  | [], s => .ok s
  | v :: vs, s => (encode c v s).bind (encodes c vs)

/-- `oc_rep_get_encoded_payload_size` (api/oc_rep_encode.c:363-401): the position of
the encoder, `none` for -1. -/
def size (e : Enc) : Option Nat := if e.err then none else some e.off

/-- The empty object in both encodings: `bf ff` and `{}`. -/
def emptyObj : Fmt → Bytes
  | .cbor => [0xbf, 0xff]
  | .json => [0x7b, 0x7d]

/-- `oc_rep_get_encoded_payload_size_v1(true)` (api/oc_rep_encode.c:363-395): as
`size`, 0 for the empty object; for two bytes the memory of the encoder is read. -/
def sizeTrunc (s : St) : Out (Option Nat) :=
  if size s.enc = some 2 then
    match s.enc.buf with
    | none => .ub
    | some i =>
      if !(s.mem i).live then .ub
      else if (s.mem i).data.take 2 = emptyObj s.enc.fmt then .ok (some 0) else .ok (some 2)
  else .ok (size s.enc)

/-- The Content-Format of the encoder (`oc_rep_encoder_get_content_format`,
api/oc_rep_encode.c:219-237). -/
def cfOf : Fmt → Cf
  | .cbor => .cbor
  | .json => .json

/-- `oc_rep_encoder_set_type_by_accept` (api/oc_rep_encode.c:202-217): no Accept
option means CBOR; for an Accept that is not known the encoding is kept.  Setting
the type starts the encoder anew (190-194). -/
def setAccept (a : Option Cf) (s : St) : St :=
  match a with
  | none => { s with enc := { s.enc with fmt := .cbor, off := 0 } }
  | some .cbor => { s with enc := { s.enc with fmt := .cbor, off := 0 } }
  | some .json => { s with enc := { s.enc with fmt := .json, off := 0 } }
  | some (.other _) => s

/-- `n` bytes of the memory `i` are sent or stored (`memcpy`, `coap_set_payload`,
`oc_storage_write`): undefined when it was freed or is shorter. -/
def read (i n : Nat) (s : St) : Out Body :=
  if !(s.mem i).live then .ub
  else if (s.mem i).size < n then .ub
  else if n ≤ (s.mem i).data.length then .ok (.bytes ((s.mem i).data.take n))
  else .ok (.uninit n)

/-- The beginning of `ri_invoke_handler` (api/oc_ri.c:1308-1393): a new response
state, the encoder is set to it and to the encoding asked for.  Handlers are not
called while another one runs. -/
def begin_ (c : Cfg) (rq : Rq) (s : St) : Out St :=
  match s.cur with
  | some _ => .ok s
  | none =>
    let (i, s) := alloc c.minApp s
    .ok { setAccept rq.accept (newGrow i c.minApp c.maxApp s) with cur := some ⟨rq, i, 0, none, true⟩ }

/-- The Content-Format of an answer (api/oc_server_api.c:180-186). -/
def label (u : Cur) : Cf :=
  match u.cf, u.rq.accept with
  | none, some a => a
  | _, _ => .cbor

/-- `oc_send_response` (api/oc_server_api.c:164-203): the Content-Format is that of
the Accept option unless an answer was given before; the length is that of the
encoder, 0 for at most two bytes unless it is the successful answer to a GET.  A
failure of the encoder (-1) becomes 0 then, else the largest `uint32_t`
(api/oc_ri.c:1204-1205). -/
def send (ok : Bool) (s : St) : Out St :=
  match s.cur with
  | none => .ok s
  | some u =>
    (sizeTrunc s).bind fun r =>
    let trunc := !(u.rq.get && ok)
    let n := match r with
      | none => if trunc then 0 else 2 ^ 32 - 1
      | some k => if trunc && decide (k ≤ 2) then 0 else k
    .ok { s with cur := some { u with len := n, cf := some (label u), ok := ok } }

/-- `oc_rep_shrink_encoder_buf` (api/oc_rep_encode.c:278-320): the memory is cut to
the size of the payload if the encoder writes to it. -/
def shrink (i : Nat) (s : St) : Out St :=
  if s.enc.buf = some i ∧ s.enc.realloc = true then
    match size s.enc with
    | none => .ok s
    | some n =>
      if n = 0 ∨ n = s.enc.size then .ok s
      else if !(s.mem i).live then .ub
      else .ok { s with mem := put s.mem i { s.mem i with size := n }, enc := { s.enc with size := n } }
  else .ok s

/-- The end of `ri_invoke_handler` and the sending of the answer
(api/oc_ri.c:1411-1423, 1200-1215, api/oc_blockwise.c:415-431): the peer asks for
all the blocks of the answer, then the response state is freed (several messages
are one step). -/
def finish (s : St) : Out St :=
  match s.cur with
  | none => .ok s
  | some u =>
    (shrink u.buf s).bind fun s =>
    if u.len = 0 then
      (free u.buf s).bind fun s =>
      .ok { s with cur := none, out := s.out ++ [.response u.rq.id u.ok none] }
    else
      (read u.buf u.len s).bind fun b =>
      (free u.buf s).bind fun s =>
      .ok { s with cur := none, out := s.out ++ [.response u.rq.id u.ok (some (b, u.cf.getD .cbor))] }

/-- Methods with a payload (api/oc_client_api.c:82-84, 239). -/
def Method.body : Method → Bool
  | .get => false
  | _ => true

/-- `oc_ri_alloc_client_cb` and `prepare_coap_request`
(api/oc_client_api.c:219-290): a transaction whose message becomes the memory of
the encoder; for PUT and POST a request buffer, which becomes the memory of the
encoder.  What was in preparation before is forgotten. -/
def prepare (c : Cfg) (r : Req) (s : St) : St :=
  let (t, s) := alloc c.block s
  let s := newFixed t c.block s
  let id := s.ncb
  let s := { s with ncb := id + 1, cbs := put s.cbs id ⟨true, r, none⟩ }
  let s := if r.m.body then
      let (i, s) := alloc c.minApp s
      let s := newGrow i c.minApp c.maxApp s
      { s with rbuf := some i, ref := put s.ref i true, cbs := put s.cbs id ⟨true, r, some i⟩ }
    else s
  { s with pkt := r, acc := cfOf s.enc.fmt, disp := some id }

/-- `oc_client_cb_free` (api/client/oc_client_cb.c:206-239): the callback is freed
with the request buffer that points to it
(`oc_blockwise_scrub_buffers_for_client_cb`, api/oc_blockwise.c:264-284), which is
on the list of request buffers until it is freed. -/
def freeCb (id : Nat) (s : St) : Out St :=
  if !(s.cbs id).live then .ub
  else
    let s' := { s with cbs := put s.cbs id { s.cbs id with live := false } }
    match (s.cbs id).rbuf with
    | none => .ok s'
    | some i => if (s.mem i).live then free i s' else .ok s'

/-- The payload of the request in preparation
(`dispatch_coap_request_set_payload`, api/oc_client_api.c:79-133): for PUT and POST
the request buffer up to the size of the encoder, in blocks if it is longer than
one and not sent over TCP (the transfer of all the blocks is one step); the
Content-Format is set if the size is not 0.  For other methods only the
Content-Format is set.  `true`: sent in blocks. -/
def payload (c : Cfg) (r : Req) (s : St) : Out (Option (Body × Cf) × Bool × St) :=
  match size s.enc with
  | none => .ok (none, false, s)
  | some n =>
    if n = 0 then .ok (none, false, s)
    else if r.m.body then
      match s.rbuf with
      | none => .ub
      | some i =>
        (read i n s).bind fun b =>
        if !r.tcp && decide (c.block < n) then .ok (some (b, cfOf s.enc.fmt), true, s)
        else .ok (some (b, cfOf s.enc.fmt), false, { s with ref := put s.ref i false })
    else .ok (some (.bytes [], cfOf s.enc.fmt), false, s)

/-- The end of `dispatch_coap_request` (api/oc_client_api.c:171-181): the request
buffer is freed unless its blocks are still needed.  (`free` also when all blocks
were sent, engine.c.) -/
def cleanup (s : St) : Out St :=
  match s.rbuf with
  | none => .ok { s with disp := none }
  | some i =>
    if !(s.mem i).live then .ub
    else if s.ref i then .ok { s with rbuf := none, disp := none }
    else (free i s).bind fun s => .ok { s with rbuf := none, disp := none }

/-- `dispatch_coap_request` (api/oc_client_api.c:137-182).  `fits`: the message
could be serialised (`coap_serialize_message`, messaging/coap/coap.c:1245-1454);
if not, the callback is freed. -/
def dispatch (c : Cfg) (fits : Bool) (s : St) : Out St :=
  match s.disp with
  | none => .ub
  | some id =>
    if !(s.cbs id).live then .ub
    else
      (payload c (s.cbs id).req s).bind fun x =>
      let s := x.2.2
      if fits then
        cleanup { s with out := s.out ++ [.request s.pkt.m (s.cbs id).req.ep s.pkt.uri
                                           (s.pkt.con || x.2.1) s.acc x.1] }
      else (freeCb id s).bind cleanup

/-- `oc_do_post_with_timeout`, `oc_do_put_with_timeout`
(api/oc_client_api.c:537-556): refused if no such request is in preparation. -/
def dispatchTimed (c : Cfg) (m : Method) (fits : Bool) (s : St) : Out St :=
  match s.disp with
  | none => .ok s
  | some id =>
    if !(s.cbs id).live then .ub
    else if (s.cbs id).req.m = m then dispatch c fits s else .ok s

/-- A record is stored (`oc_storage_data_save`, api/oc_storage.c:182-240;
security/oc_store.c:400-440 and the like): memory of its own, the encoder is set to
it, the record is encoded, the memory is cut, written to the storage and freed.  A
record that does not fit is not stored.  (Writing to the storage: area Storage.) -/
def dump (c : Cfg) (name : Nat) (vs : List Nat) (s : St) : Out St :=
  let (i, s) := alloc c.minApp s
  (encodes c vs (newGrow i c.minApp c.maxApp s)).bind fun s =>
  match size s.enc with
  | none => free i s
  | some n =>
    (shrink i s).bind fun s =>
    (read i n s).bind fun b =>
    (free i { s with out := s.out ++ [.stored name b] })

/-- `oc_init_multicast_update` (api/oc_client_api.c:355-391): the payload is encoded
into the message. -/
def updInit (c : Cfg) (uri : Nat) (s : St) : St :=
  let (i, s) := alloc c.block s
  let s := newFixed i c.block s
  { s with upd := some i, pkt := ⟨.post, 0, false, uri, false⟩, acc := .cbor }

/-- `oc_do_multicast_update` (api/oc_client_api.c:315-353): nothing is sent without
a payload; the packet is the one prepared last.  (The message of the update and its
copy for IPv4 are one message here.) -/
def updDo (s : St) : Out St :=
  match size s.enc with
  | none => .ok { s with upd := none }
  | some n =>
    if n = 0 then .ok { s with upd := none }
    else match s.upd with
    | none => .ub
    | some i =>
      (read i n s).bind fun b =>
      .ok { s with upd := none, out := s.out ++ [.update s.pkt.uri b (cfOf s.enc.fmt)] }

/-- The callbacks with a number below `n` that have not been freed and whose request
went to the endpoint are freed (`oc_ri_free_client_cbs_by_endpoint_v1`,
api/client/oc_client_cb.c:310-326; the calls of the handlers are left out, area
Client). -/
def closeCbs (ep : Nat) : Nat → St → Out St
  | 0, s => .ok s
  | n + 1, s =>
    (closeCbs ep n s).bind fun s =>
    if (s.cbs n).live ∧ (s.cbs n).req.ep = ep then freeCb n s else .ok s

/-- The ending of the connection to an endpoint (security/oc_tls.c:530-545). -/
def close (ep : Nat) (s : St) : Out St := closeCbs ep s.ncb s

/-- What the application, its handlers and the network do. -/
inductive Op where
  | begin_ (rq : Rq)
  | encode (v : Nat)
  | send (ok : Bool)
  | finish
  | prepare (r : Req)
  | dispatch (fits : Bool)
  | dispatchTimed (m : Method) (fits : Bool)
  | dump (name : Nat) (vs : List Nat)
  | updInit (uri : Nat)
  | updDo
  | close (ep : Nat)
  deriving DecidableEq, Repr

/-- One step. -/
def step (c : Cfg) : Op → St → Out St
  | .begin_ rq, s => begin_ c rq s
  | .encode v, s => encode c v s
  | .send ok, s => send ok s
  | .finish, s => finish s
  | .prepare r, s => .ok (prepare c r s)
  | .dispatch f, s => dispatch c f s
  | .dispatchTimed m f, s => dispatchTimed c m f s
  | .dump n vs, s => dump c n vs s
  | .updInit u, s => .ok (updInit c u s)
  | .updDo, s => updDo s
  | .close e, s => close e s

/-- A history. -/
def run (c : Cfg) : List Op → St → Out St
  | [], s => .ok s
  | o :: os, s => (step c o s).bind (run c os)

end Verif.Encode
