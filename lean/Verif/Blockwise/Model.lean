import Verif.Bytes

/-!
Model of block-wise transfer: api/oc_blockwise.c (block buffers) and its users in
messaging/coap/engine.c (server and client side of block1 and block2) for one
transfer, that is, one key (path, query, endpoint, method, role) of
`blockwise_find_buffer` (oc_blockwise.c:375-391), respectively one client
callback.

Block options arrive decoded (C15 proves the coding); `size` is the block size
after the limit to `OC_BLOCK_SIZE` of engine.c:208-222, `off` the decoded offset.
Offsets and sizes are natural numbers; where the C code computes modulo 2^32 the
definition does so too.  Memory from `malloc` is uninitialised: a cell that was
never written is `none`.
-/

namespace Verif.Blockwise

/-- `uint32_t` arithmetic. -/
def u32 : Nat := 2 ^ 32

/-- api/oc_blockwise_internal.h `oc_blockwise_state_t`: the memory of
`buffer_size` cells, `next_block_offset` and `payload_size`.  The reference count
is represented by the presence of the buffer: `oc_blockwise_free_all_buffers`
(engine.c:1218) frees a buffer whose count is 0 at the end of the same message. -/
structure Buf where
  mem : List (Option UInt8)
  next : Nat
  psize : Nat
  deriving Repr, DecidableEq

/-- oc_blockwise.c:49-104 `blockwise_init_buffer`, successful allocation with
`OC_DYNAMIC_ALLOCATION` and without a pool of application buffers. -/
def alloc (cap : Nat) : Buf := ⟨List.replicate cap none, 0, 0⟩

/-- oc_blockwise.c:433-454 `oc_blockwise_handle_block`; `data` is the payload of
the message and `size` the argument `incoming_block_size`. -/
def handleBlock (b : Buf) (off : Nat) (data : List UInt8) (size : Nat) : Out (Bool × Buf) :=
  if off ≥ b.mem.length ∨ size > b.mem.length - off ∨ off > b.next then .ok (false, b)
  else if b.next = off then
    (sliceChk data 0 size).bind fun d =>
    (writeChk b.mem b.next (d.map some)).bind fun m =>
    .ok (true, { b with mem := m, next := b.next + size })
  else .ok (true, b)

/-- oc_blockwise.c:415-431 `oc_blockwise_dispatch_block`: the offset and the
number of bytes handed to the serializer. -/
def dispatchBlock (b : Buf) (off req : Nat) : Option ((Nat × Nat) × Buf) :=
  if off < b.psize then
    let n := if b.psize < req then b.psize else min req (b.psize - off)
    some ((off, n), { b with next := off + n })
  else none

/-- A block message: number, decoded offset, block size, more flag, payload and
the Size1 option of the message if present. -/
structure Blk where
  num : Nat
  off : Nat
  size : Nat
  more : Bool
  data : List UInt8
  size1 : Option Nat
  deriving Repr, DecidableEq

/-- What the server does with a block1 request: 2.31 Continue with the block
number and size of the response, the request handler called with a payload, or a
reset message. -/
inductive Res1 where
  | cont (num size : Nat)
  | invoke (payload : List (Option UInt8))
  | error
  deriving Repr, DecidableEq

/-- engine.c:333-337: the capacity of a new request buffer; `max` is
`OC_MAX_APP_DATA_SIZE`. -/
def capacity (max : Nat) (size1 : Option Nat) : Nat :=
  match size1 with
  | none => max
  | some n => if n = 0 then max else n

/-- engine.c:323-330: a buffer that is complete is dropped unless the block is
its last one. -/
def dropComplete (s : Option Buf) (m : Blk) : Option Buf :=
  match s with
  | none => none
  | some b =>
    if b.psize = b.next ∧ (b.next + u32 - m.data.length % u32) % u32 ≠ m.off then none else some b

/-- engine.c:332-352. -/
def openBuf (max : Nat) (s : Option Buf) (m : Blk) : Option Buf :=
  match s with
  | some b => some b
  | none => if m.num = 0 then some (alloc (capacity max m.size1)) else none

/-- engine.c:311-385 `coap_receive_blockwise_block1` with the effect of the
returned status on the buffer (engine.c:1193-1219: on an error the buffer is
released; after the handler ran it is released, :383). -/
def recv1 (max : Nat) (s : Option Buf) (m : Blk) : Out (Option Buf × Res1) :=
  match openBuf max (dropComplete s m) m with
  | none => .ok (none, .error)
  | some b =>
    (handleBlock b m.off m.data (min (m.data.length % 2 ^ 16) m.size)).bind fun r =>
    if r.1 then
      if m.more then .ok (some r.2, .cont m.num m.size)
      else .ok (none, .invoke (r.2.mem.take r.2.next))
    else .ok (none, .error)

/-- Events at the server during an upload: a block message, or the timed release
of the buffer (oc_blockwise.c:177, `OC_EXCHANGE_LIFETIME`). -/
inductive Op1 where
  | msg (m : Blk)
  | expire
  deriving Repr, DecidableEq

/-- A history of events at the server and the answers given. -/
def runs1 (max : Nat) : Option Buf → List Op1 → Out (Option Buf × List Res1)
  | s, [] => .ok (s, [])
  | s, .msg m :: r =>
    (recv1 max s m).bind fun x => (runs1 max x.1 r).bind fun y => .ok (y.1, x.2 :: y.2)
  | _, .expire :: r => runs1 max none r

/-- engine.c:283-309 `coap_receive_create_request_buffer` called for a request
without block options (:553-575): the payload handed to the handler, `none` for
an error.  `size1` as in `capacity`. -/
def recvPlain (max : Nat) (size1 : Option Nat) (data : List UInt8) :
    Out (Option (List (Option UInt8))) :=
  (handleBlock (alloc (capacity max size1)) 0 data (data.length % 2 ^ 16)).bind fun r =>
  if r.1 then (sliceChk r.2.mem 0 data.length).bind fun p => .ok (some p) else .ok none

/-- A response block: number, size, more flag, payload. -/
structure RBlk where
  num : Nat
  size : Nat
  more : Bool
  data : List (Option UInt8)
  deriving Repr, DecidableEq

/-- What the server does with a block2 request. -/
inductive Res2 where
  | block (r : RBlk)
  | dup
  | error
  | invoke
  deriving Repr, DecidableEq

/-- engine.c:713-733: the answer sent right after the handler filled the buffer:
the first block and whether the transfer goes on (the buffer is kept).  `enabled`:
the request had a block2 option.  The bytes are read when the message is
serialized; `coap_set_payload` (coap.c:1640-1649) cuts them to `OC_BLOCK_SIZE`,
which `size` never exceeds.  A transfer in one block sends no block option. -/
def respond (b : Buf) (enabled : Bool) (size : Nat) : Out (Option Buf × RBlk) :=
  match dispatchBlock b 0 size with
  | none => .ok (if enabled ∨ b.psize > size then some b else none, ⟨0, size, false, []⟩)
  | some ((off, n), b') =>
    (sliceChk b'.mem off n).bind fun d =>
    .ok (if enabled ∨ b'.psize > size then some b' else none,
      ⟨0, size, decide (b'.psize > size), d⟩)

/-- engine.c:387-492 `coap_receive_blockwise_block2` for a request without
payload. -/
def recv2 (s : Option Buf) (num off size : Nat) : Out (Option Buf × Res2) :=
  match s with
  | some b =>
    if (b.next + u32 - off % u32) % u32 > size then .ok (some b, .dup)
    else match dispatchBlock b off size with
      | none => .ok (none, .error)
      | some ((o, n), b') =>
        (sliceChk b'.mem o n).bind fun d =>
        .ok (if b'.next < b'.psize then some b' else none,
          .block ⟨num, size, decide (b'.next < b'.psize), d⟩)
  | none => if num ≠ 0 then .ok (none, .error) else .ok (none, .invoke)

/-- What a client does with a response: asks for the next block, or calls the
response handler of the application with a payload. -/
inductive ResC where
  | ask (num size : Nat)
  | callback (payload : List (Option UInt8))
  deriving Repr, DecidableEq

/-- engine.c:991-1062, a response without an error code for a known client
callback: `max` is `OC_MAX_APP_DATA_SIZE`.  The allocation of the transaction of
the next request succeeds. After the callback the buffer is released (:861-864)
unless a separate response was announced.  `m.off` is 0 if there is no block2
option. -/
def recvC (max : Nat) (s : Option Buf) (m : Blk) : Out (Option Buf × ResC) :=
  let b := s.getD (alloc max)
  if m.data.length > 0 then
    (handleBlock b m.off m.data m.data.length).bind fun r =>
    if r.1 then
      if m.more then .ok (some r.2, .ask (m.num + 1) m.size)
      else .ok (none, .callback (r.2.mem.take r.2.next))
    else .ok (none, .callback (r.2.mem.take r.2.psize))
  else .ok (none, .callback (b.mem.take b.psize))

/-- A history of responses at the client. -/
def runsC (max : Nat) : Option Buf → List Blk → Out (Option Buf × List ResC)
  | s, [] => .ok (s, [])
  | s, m :: r =>
    (recvC max s m).bind fun x => (runsC max x.1 r).bind fun y => .ok (y.1, x.2 :: y.2)

/-- api/oc_client_api.c:92-106: the first block of an upload; `none`: the payload
is sent as a whole. -/
def upload0 (b : Buf) (blockSize : Nat) : Out (Option (Blk × Buf)) :=
  if b.psize > blockSize then
    match dispatchBlock b 0 blockSize with
    | none => .ok none
    | some ((o, n), b') =>
      (sliceChk b'.mem o n).bind fun d =>
      .ok (some (⟨0, 0, n, true, d.map (·.getD 0), some b.psize⟩, b'))
  else .ok none

/-- engine.c:932-968: the next block of an upload, sent when the server answered
2.31 with block number `num` and size `size` (offset `num * size`). `none`: there
is no further block. -/
def uploadNext (b : Buf) (num size : Nat) : Out (Option (Blk × Buf)) :=
  match dispatchBlock b ((num * size + size) % u32) size with
  | none => .ok none
  | some ((o, n), b') =>
    (sliceChk b'.mem o n).bind fun d =>
    .ok (some (⟨num + 1, (num + 1) * size, size, decide (b'.next < b'.psize),
      d.map (·.getD 0), none⟩, b'))

end Verif.Blockwise
