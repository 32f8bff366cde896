/-
Model of the notification of a change to the observers of a resource:
messaging/coap/observe.c:591-836, 920-1193 and 1542-1620.

Simplifications: one logical device; a handler does not answer later
(`separate_response`); a representation is a number, with its length; the pools
of transactions and of response buffers are counters of what can still be taken;
ETags and content formats are left out; `num_observers` of a resource is the
number of its observers in the list (area Observe).
-/
import Verif.Common

namespace Verif.Notify

/-- include/oc_ri.h:170 `OC_IF_BASELINE`. -/
def ifBaseline : Nat := 2
/-- include/oc_ri.h:172 `OC_IF_B`. -/
def ifB : Nat := 8
/-- include/oc_ri.h:174 `OC_IF_RW`. -/
def ifRw : Nat := 32
/-- include/oc_ri.h:179 `OC_IF_STARTUP`. -/
def ifStartup : Nat := 1024
/-- include/oc_ri.h:180 `OC_IF_STARTUP_REVERT`. -/
def ifRevert : Nat := 2048
/-- messaging/coap/constants.h:138 `CONTENT_2_05`. -/
def content : Nat := 69
/-- messaging/coap/constants.h:136 `VALID_2_03`. -/
def valid : Nat := 67
/-- messaging/coap/constants.h:162 `CLEAR_TRANSACTION`, a value no other code has. -/
def clearTx : Nat := 1000

/-- observe_internal.h `coap_observer_t`. -/
structure Obs where
  id : Nat
  res : Nat
  ep : Nat
  token : List UInt8
  iface : Nat
  tcp : Bool
  block : Nat
  cnt : Nat
deriving DecidableEq, Repr

/-- A response buffer of a transfer in blocks (api/oc_blockwise_internal.h:60-80);
`done`: all of it was asked for (observe.c:604). -/
structure Xf where
  ep : Nat
  res : Nat
  iface : Nat
  done : Bool
deriving DecidableEq, Repr

/-- `oc_response_buffer_t`: code, length and (a number for) the contents. -/
structure Buf where
  code : Nat
  len : Nat
  body : Nat
deriving DecidableEq, Repr

/-- A notification on its way: endpoint, token, code, Observe option, whether it is
confirmable, contents (`none`: no payload), whether it is only the first block,
message id. -/
structure Note where
  ep : Nat
  token : List UInt8
  code : Nat
  seq : Nat
  con : Bool
  body : Option Nat
  first : Bool
  mid : Nat
deriving DecidableEq, Repr

/-- The list of observers, the response buffers, the next message id, what can
still be allocated, and what was sent. -/
structure St where
  obs : List Obs
  xfers : List Xf
  mid : Nat
  mem : Nat
  bufs : Nat
  outs : List Note
deriving DecidableEq, Repr

/-- What a GET handler does: `oc_send_response`, `oc_ignore_request`, or nothing
(api/oc_server_api.c:136-209). -/
inductive Ans where
  | reply (b : Buf)
  | ignore
  | silent
deriving DecidableEq, Repr

/-- The return value of `coap_send_notification_internal`: -1, 0, 1. -/
inductive Ret where
  | fail
  | nothing
  | sent
deriving DecidableEq, Repr

/-- Number of observers of a resource. -/
def nobs (s : St) (r : Nat) : Nat := (s.obs.filter fun o => o.res == r).length

/-- coap_internal.h:189-190, observe.c:194-202 `observe_increment_observe_counter`. -/
def inc (c : Nat) : Nat := if c = 2 ^ 24 - 1 then 2 else c + 1

/-- observe.c:757-792: the Observe option, the transaction, and sending. -/
def finish (s : St) (o : Obs) (code : Nat) (con : Bool) (body : Option Nat) (first : Bool) : St × Ret :=
  let num := code < 128 ∧ nobs s o.res ≠ 0
  let s1 := if num then { s with obs := s.obs.map fun x => if x.id == o.id then { x with cnt := inc x.cnt } else x } else s
  let seq := if num then o.cnt else 1
  if s1.mem = 0 then ({ s1 with mid := s1.mid + 1 }, .fail)
  else ({ s1 with
          mid := s1.mid + 1, mem := s1.mem - 1,
          outs := s1.outs ++ [⟨o.ep, o.token, code, seq, con, body, first, s1.mid⟩] }, .sent)

/-- A response buffer of this observer (observe.c:600-602). -/
def own (o : Obs) (x : Xf) : Bool := x.ep == o.ep && x.res == o.res && x.iface == o.iface

/-- observe.c:591-661 `coap_prepare_notification_blockwise`, and the rest when it
succeeds. -/
def sendBlocks (s : St) (o : Obs) (b : Buf) : St × Ret :=
  match s.xfers.find? (own o) with
  | some x =>
    if !x.done then (s, .nothing)
    else
      let s := { s with xfers := s.xfers.filter fun x => !own o x }
      if s.bufs = 0 then (s, .fail)
      else finish { s with xfers := s.xfers ++ [⟨o.ep, o.res, o.iface, false⟩], bufs := s.bufs - 1 } o b.code true (some b.body) true
  | none =>
    if s.bufs = 0 then (s, .fail)
    else finish { s with xfers := s.xfers ++ [⟨o.ep, o.res, o.iface, false⟩], bufs := s.bufs - 1 } o b.code true (some b.body) true

/-- observe.c:714-793 `coap_send_notification_internal`; the buffer is shared with
the observers that follow, and its code is overwritten for a revert
notification. -/
def sendOne (s : St) (o : Obs) (b : Buf) (ignRevert : Bool) : St × Buf × Ret :=
  let revert := o.iface == ifRevert
  let b := if revert then { b with code := valid } else b
  if ignRevert || !revert then
    if b.len = 0 then (s, b, .nothing)
    else if b.len > o.block && !o.tcp then
      let r := sendBlocks s o b
      (r.1, b, r.2)
    else
      let r := finish s o b.code (o.cnt % 5 == 0 && !o.tcp) (some b.body) false
      (r.1, b, r.2)
  else
    let r := finish s o b.code false none false
    (r.1, b, r.2)

/-- observe.c:1000-1050 `coap_fill_response`; `h` is the GET handler, called with
an interface and an endpoint. -/
def fill (h : Nat → Nat → Ans) (iface ep : Nat) (b : Buf) : Buf × Bool :=
  match h iface ep with
  | .reply b' => (b', b'.code != clearTx)
  | .ignore => ({ b with code := clearTx }, false)
  | .silent => (b, b.code != clearTx)

/-- include/oc_ri.h `oc_resource_t`: default interface, `OC_OBSERVABLE`, whether it
is a collection, whether it is the discovery resource. -/
structure Res where
  id : Nat
  dflt : Nat
  observable : Bool
  coll : Bool
  disc : Bool
deriving DecidableEq, Repr

/-- observe.c:1077-1094: the observers that are notified. -/
def pass (r : Res) (ep : Option Nat) (o : Obs) : Bool :=
  o.res == r.id && ep.all (· == o.ep) && !(r.coll && o.iface != ifBaseline) &&
    !(r.disc && o.iface == ifB) && o.iface != ifStartup

/-- observe.c:1057-1063: the interface the representation is made for. -/
def ifOf (r : Res) : Nat := if r.coll then ifBaseline else r.dflt

/-- observe.c:1074-1115: the loop of `coap_iterate_observers`. -/
def iterLoop (h : Nat → Nat → Ans) (r : Res) (ep : Option Nat) (prep : Bool) :
    List Obs → St → Buf → Nat → St × Nat
  | [], s, _, n => (s, n)
  | o :: os, s, b, n =>
    if !pass r ep o then iterLoop h r ep prep os s b n
    else
      let f := if prep then fill h (ifOf r) o.ep b else (b, true)
      if !f.2 then iterLoop h r ep prep os s f.1 n
      else
        let t := sendOne s o f.1 false
        if t.2.2 == .fail then (t.1, n) else iterLoop h r ep prep os t.1 t.2.1 (n + 1)

/-- observe.c:1052-1118 `coap_iterate_observers`. -/
def iterate (h : Nat → Nat → Ans) (r : Res) (ep : Option Nat) (prep : Bool) (s : St) (b : Buf) : St × Nat :=
  match prep, ep with
  | true, some e =>
    let f := fill h (ifOf r) e b
    if !f.2 then (s, 0) else iterLoop h r ep false s.obs s f.1 0
  | _, _ => iterLoop h r ep prep s.obs s b 0

/-- api/oc_collection.h `oc_collection_t`: its number, its default interface and
the resources it links. -/
structure Coll where
  id : Nat
  dflt : Nat
  links : List Nat
deriving DecidableEq, Repr

/-- observe.c:824-830. -/
def collPass (c : Coll) (o : Obs) : Bool :=
  o.res == c.id && (o.iface == ifB || (o.iface ||| ifB) == c.dflt)

/-- observe.c:812-836 `coap_notify_collection_observers` with `OC_IF_B`. -/
def collLoop (c : Coll) : List Obs → St → Buf → St × Buf
  | [], s, b => (s, b)
  | o :: os, s, b =>
    if !collPass c o then collLoop c os s b
    else
      let t := sendOne s o b true
      if t.2.2 == .fail then (t.1, t.2.1) else collLoop c os t.1 t.2.1

/-- observe.c:948-971: the loop of `coap_notify_collections` over the collections
that link the resource; `ch` is what `oc_handle_collection_request` makes of a
collection, `none` when it fails. -/
def collsLoop (ch : Nat → Option Buf) : List Coll → St → Buf → St
  | [], s, _ => s
  | c :: cs, s, b =>
    if nobs s c.id = 0 then s
    else
      match ch c.id with
      | none => collsLoop ch cs s b
      | some b' =>
        let t := collLoop c s.obs s b'
        collsLoop ch cs t.1 t.2

/-- What the call depends on: the state of the device, whether the working buffers
could be allocated, the handlers, the collections. -/
structure Env where
  rfnop : Bool
  work : Bool
  h : Nat → Nat → Ans
  ch : Nat → Option Buf
  colls : List Coll

/-- observe.c:1120-1132, 920-979: the collections that link the resource. -/
def collections (e : Env) (r : Res) (s : St) : St :=
  if !e.work then s
  else collsLoop e.ch (e.colls.filter fun c => c.links.contains r.id) s ⟨0, 0, 0⟩

/-- observe.c:1134-1193 `coap_notify_observers_internal`; `none`: -1. -/
def internal (e : Env) (r : Res) (buf : Option Buf) (ep : Option Nat) (s : St) : St × Option Nat :=
  if !e.rfnop then (s, some 0)
  else if nobs s r.id = 0 then (collections e r s, some 0)
  else
    match buf with
    | some b =>
      let t := iterate e.h r ep false s b
      (collections e r t.1, some t.2)
    | none =>
      if !e.work then (s, none)
      else
        let t := iterate e.h r ep true s ⟨0, 0, 0⟩
        (collections e r t.1, some t.2)

/-- observe.c:1567-1582: the loop of `notify_discovery_observers`. -/
def discLoop (h : Nat → Nat → Ans) (r : Res) : List Obs → St → Buf → Nat → St × Nat
  | [], s, _, n => (s, n)
  | o :: os, s, b, n =>
    if o.res != r.id then discLoop h r os s b n
    else if o.iface &&& ifB != 0 then discLoop h r os s b n
    else
      let f := fill h (if o.iface = 0 then r.dflt else o.iface) o.ep b
      if !f.2 then discLoop h r os s f.1 n
      else
        let t := sendOne s o f.1 false
        if t.2.2 == .fail then (t.1, n) else discLoop h r os t.1 t.2.1 (n + 1)

/-- observe.c:1596-1620 `coap_notify_observers`, without the entries for batch
observers of the discovery resource (area Batch). -/
def notify (e : Env) (r : Res) (buf : Option Buf) (ep : Option Nat) (s : St) : St × Option Nat :=
  if !r.observable then (s, some 0)
  else if r.disc then
    if !e.work then (s, none)
    else
      let t := discLoop e.h r s.obs s ⟨0, 0, 0⟩ 0
      (t.1, some t.2)
  else internal e r buf ep s

end Verif.Notify
