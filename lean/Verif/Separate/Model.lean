import Verif.Common

/-!
Model of separate responses: a handler announces that the answer comes later
(oc_indicate_separate_response), the requests are recorded in the application's
handle (messaging/coap/separate.c) and answered by oc_send_separate_response
(api/oc_server_api.c).

Simplifications: endpoints are numbers; the requests of one handle are modelled,
other handles use the same pool of records, so whether a record can be allocated
is an input; the encoding of messages is not modelled (it is in `Verif.CoapMsg`);
with dynamic allocation compiled in.
-/

namespace Verif.Separate

/-- A request as `coap_separate_accept` (messaging/coap/separate.c:71-75) gets it.
`observe` is -1 if there is no Observe option, 0 for registering, 1 for
cancelling; notifications use 2 and more (observe.c:558-587). `con`: the message
is confirmable. -/
structure Req where
  ep : Nat
  token : List UInt8
  observe : Int
  con : Bool
  mid : Nat
  uri : List UInt8
  block2 : Nat
  tcp : Bool

/-- messaging/coap/separate_internal.h:56-67 `coap_separate_t`. -/
structure Store where
  token : List UInt8
  observe : Int
  ep : Nat
  uri : List UInt8
  block2 : Nat
  tcp : Bool
  deriving DecidableEq

/-- A message or notification that leaves the server: an empty ACK, an answer
(code, whether it carries an Observe option, length of the first block or of the
payload), or the notification of the observers of a resource at an endpoint. -/
inductive Msg where
  | ack (ep mid : Nat)
  | resp (ep : Nat) (token : List UInt8) (code : Nat) (observe : Option Nat) (len : Nat)
  | notify (ep : Nat) (uri : List UInt8)
  deriving DecidableEq

/-- messaging/coap/oc_coap.h:32-42 `oc_separate_response_s` and the memory it uses:
`buf` is the pointer to the buffer (a number; `none` is NULL), `heap` the buffers
that are allocated, `next` the number of the next one, `stores` the number of
records taken from the pool for this handle and not given back, `txs` the number
of transactions that were allocated and neither sent nor freed. -/
structure Sys where
  active : Bool
  reqs : List Store
  buf : Option Nat
  heap : List Nat
  next : Nat
  stores : Nat
  txs : Nat
  deriving DecidableEq

/-- A handle as the application declares it (a static variable: all zero). -/
def fresh : Sys := ⟨false, [], none, [], 0, 0, 0⟩

/-- Which allocations succeed while a request is accepted: the buffer, the record,
the message for the ACK. -/
structure Mem where
  buf : Bool
  store : Bool
  ack : Bool

/-- messaging/coap/separate.c:83-92: the first request of a round; `none` if there is
no memory for the buffer. -/
def begin_ (s : Sys) (m : Mem) : Sys × Bool :=
  if s.active then (s, true)
  else if m.buf then
    ({ s with reqs := [], buf := some s.next, heap := s.next :: s.heap, next := s.next + 1 }, true)
  else ({ s with reqs := [], buf := none }, false)

/-- messaging/coap/separate.c:95-103: the record of the same request. -/
def same (q : Req) (x : Store) : Bool := x.token == q.token && x.observe == q.observe

/-- messaging/coap/separate.c:105-134: the endpoint of the first record of the same
request is replaced; without one a new record is added. -/
def record (q : Req) : List Store → List Store
  | [] => [⟨q.token, q.observe, q.ep, q.uri, q.block2, q.tcp⟩]
  | x :: l => if same q x then { x with ep := q.ep } :: l else x :: record q l

/-- messaging/coap/separate.c:177-187 `coap_separate_clear` for the record of the
request. -/
def clear (q : Req) : List Store → List Store
  | [] => []
  | x :: l => if same q x then l else x :: clear q l

/-- messaging/coap/separate.c:71-160 `coap_separate_accept`. -/
def accept (s : Sys) (q : Req) (m : Mem) : Bool × List Msg × Sys :=
  match begin_ s m with
  | (s, false) => (false, [], s)
  | (s, true) =>
    if !s.reqs.any (same q) && !m.store then (false, [], s)
    else
      let n := if s.reqs.any (same q) then s.stores else s.stores + 1
      let t := { s with reqs := record q s.reqs, stores := n }
      if q.con then
        if m.ack then (true, [.ack q.ep q.mid], t)
        else (false, [], { t with reqs := clear q t.reqs, stores := n - 1 })
      else (true, [], t)

/-- oc_ri.c:1143-1147, observe.c:583-586: the handle becomes active if the request
was accepted. Nothing is sent otherwise (separate.c:81). -/
def request (s : Sys) (q : Req) (m : Mem) : List Msg × Sys :=
  let r := accept s q m
  (r.2.1, if r.1 then { r.2.2 with active := true } else r.2.2)

/-- `free (handle->buffer)`: NULL may be freed, a buffer twice not. -/
def freeBuf (s : Sys) : Out Sys :=
  match s.buf with
  | none => .ok s
  | some i => if i ∈ s.heap then .ok { s with heap := s.heap.erase i } else .ub

/-- api/oc_server_api.c:572-580 `oc_set_separate_response_buffer` and the encoding of
the payload: the buffer is written. -/
def write (s : Sys) : Out Sys :=
  match s.buf with
  | none => .ub
  | some i => if i ∈ s.heap then .ok s else .ub

/-- The surroundings of sending: whether a transaction can be allocated for a
record, whether an earlier block-wise answer to it is not finished, whether memory
for a new one can be allocated, whether the resource of a notification exists. -/
structure Env where
  tx : Store → Bool
  busy : Store → Bool
  bw : Store → Bool
  res : Store → Bool

/-- api/oc_server_api.c:597-662 `handle_separate_response_request`: what is sent, and
the number of transactions left over. The message itself is taken to be
serializable. -/
def answer (e : Env) (x : Store) (code len : Nat) : List Msg × Nat :=
  if !e.tx x then ([], 0)
  else if !x.tcp && decide (len > x.block2) then
    if e.busy x then ([], 1)
    else if !e.bw x then ([], 1)
    else ([.resp x.ep x.token code none x.block2], 0)
  else ([.resp x.ep x.token code none len], 0)

/-- api/oc_server_api.c:704-716: one record. -/
def answerOne (e : Env) (x : Store) (code len : Nat) : List Msg × Nat :=
  if x.observe < 2 then answer e x code len
  else (if e.res x then [.notify x.ep x.uri] else [], 0)

/-- api/oc_server_api.c:702-718: all records. -/
def answers (e : Env) (l : List Store) (code len : Nat) : List Msg × Nat :=
  match l with
  | [] => ([], 0)
  | x :: l =>
    let a := answerOne e x code len
    let r := answers e l code len
    (a.1 ++ r.1, a.2 + r.2)

/-- api/oc_server_api.c:680-724 `oc_send_separate_response`; `code` is the code of
the status, `none` if it is not a status. `len` is the length of the payload in the
buffer, which is read if it is not 0. -/
def send (s : Sys) (e : Env) (code : Option Nat) (len : Nat) : Out (List Msg × Sys) :=
  match code with
  | none =>
    (freeBuf s).bind fun s => .ok ([], { s with reqs := [], stores := s.stores - s.reqs.length })
  | some c =>
    (if s.reqs ≠ [] ∧ len ≠ 0 then write s else .ok s).bind fun s =>
    let a := answers e s.reqs c len
    (freeBuf { s with reqs := [], stores := s.stores - s.reqs.length, active := false, txs := s.txs + a.2 }).bind
      fun t => .ok (a.1, t)

/-- What happens to a handle: requests are accepted, the application writes the
buffer, the application sends. -/
inductive Ev where
  | request (q : Req) (m : Mem)
  | write
  | send (e : Env) (code : Option Nat) (len : Nat)

/-- One event. -/
def step (s : Sys) : Ev → Out (List Msg × Sys)
  | .request q m => .ok (request s q m)
  | .write => (write s).bind fun s => .ok ([], s)
  | .send e c len => send s e c len

/-- A history: the messages and the state. -/
def run : Sys → List Ev → Out (List Msg × Sys)
  | s, [] => .ok ([], s)
  | s, v :: l => (step s v).bind fun r => (run r.2 l).bind fun x => .ok (r.1 ++ x.1, x.2)

end Verif.Separate
