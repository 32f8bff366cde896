import Verif.Discovery.Model

/-! What discovery promises, stated without the functions of the model. -/

namespace Verif.Discovery

open Verif.Rep (Bytes Rep Val b)
open Verif.Endpoint (Ep Flags)

/-- The resources that the directory of a device covers: those of the platform, those
of the device (`/oic/con` if it is announced; not `/.well-known/core` nor the introspection
data), and those of the application, collections included. -/
def InDirectory (w : World) (dev : Nat) (r : Res) : Prop :=
  (∃ k, (k = .p ∨ k = .time) ∧ w.core k 0 = some r) ∨
  (∃ k, k ≠ .p ∧ k ≠ .time ∧ k ≠ .introData ∧ k ≠ .wkcore ∧ (k = .con → w.announced = true) ∧
    w.core k dev = some r) ∨
  ((r ∈ w.apps ∨ r ∈ w.cols) ∧ r.device = dev)

/-- The request asks for the resource: it names no type, or one of the resource's. -/
def Wanted (q : Req) (r : Res) : Prop := q.rts = [] ∨ ∃ t ∈ r.types, t ∈ q.rts

/-- The objects of the stack are different ones. -/
structure Distinct (w : World) : Prop where
  core : ∀ k k' d d' c c', w.core k d = some c → w.core k' d' = some c' → c.addr = c'.addr → k = k'
  dyn : ((w.apps ++ w.cols).map (·.addr)).Nodup
  cross : ∀ k d c, w.core k d = some c → ∀ r ∈ w.apps ++ w.cols, c.addr ≠ r.addr

/-- The endpoint can be used by the sender of the request: same network interface, and
not of the other family of addresses. -/
def Reachable (o e : SEp) : Prop :=
  (o.index = 0 ∨ o.index = e.index) ∧
  ¬ (o.ep.flags.ipv4 = true ∧ e.ep.flags.ipv6 = true) ∧
  ¬ (o.ep.flags.ipv6 = true ∧ e.ep.flags.ipv4 = true)

/-- The resource may only be used over secured endpoints: the application said so, or it is
one of the security resources of a device that has left RFOTM or has a session. -/
def MustBeSecured (w : World) (dev : Nat) (r : Res) : Prop :=
  (r.secure = true ∨
    ((∃ k c, (k = .doxm ∨ k = .pstat ∨ k = .acl ∨ k = .ael ∨ k = .cred ∨ k = .sdi ∨ k = .sp ∨
        k = .csr ∨ k = .roles) ∧ w.core k dev = some c ∧ c.addr = r.addr) ∧
      (w.inRfotm dev = false ∨ w.peers dev ≠ 0))) ∧
  ¬ (w.rfotmFeature = true ∧ w.inRfotm dev = true ∧ r.rfotm = true)

/-- The resources whose representations a client may get in one batch: visible, not
`/oic/res` itself nor `/.well-known/core` nor a security resource, and readable. -/
def Readable (w : World) (dev : Nat) (allowed : Nat → Bool) (r : Res) : Prop :=
  r ∈ iterate w dev ∧ r.disc = true ∧ isKind w .res r.device r = false ∧
  isKind w .wkcore r.device r = false ∧ isSvr w r.device r = false ∧ allowed r.addr = true

/-- The client's copy is right for everything it may read. -/
def UpToDate (dev : Nat) (s : Sys) : Prop :=
  ∀ r, Readable s.w dev s.allowed r → s.copy (hrefOf r.uri) = some (r.etag, r.content)

/-- What a link tells an application, whatever follows it. -/
structure Seen where
  anchor : Bytes
  uri : Bytes
  types : List Bytes
  ifaces : BitVec 32
  eps : List CEp
  bm : Int
  deriving DecidableEq, Repr

/-- A call of the handler without `more`. -/
def Report.seen (r : Report) : Seen := ⟨r.anchor, r.uri, r.types, r.ifaces, r.eps, r.bm⟩

/-- The interfaces that are public. -/
def publicIfaces : BitVec 32 := 0xffe

/-- The endpoint a client makes of a published one: scheme, address and port are those
published; device, network interface are those of the answer; the identity is the device's. -/
def expectedEp (o : SEp) (di : Bytes) (e : SEp) : CEp :=
  { ep := { flags := { tcp := e.ep.flags.tcp, secured := e.ep.flags.secured, ipv4 := e.ep.flags.ipv4,
                       ipv6 := !e.ep.flags.ipv4 },
            device := o.ep.device, port := e.ep.port,
            bytes := if e.ep.flags.ipv4 then e.ep.bytes.take 4 ++ List.replicate 12 0 else e.ep.bytes },
    index := o.index, di := some di }

/-- What an application is to learn about a resource. -/
def expected (w : World) (q : Req) (o : SEp) (r : Res) : Seen :=
  { anchor := b "ocf://" ++ uuidText (w.di q.device), uri := r.uri,
    types := r.types.filter fun t => !t.isEmpty,
    ifaces := r.ifaces &&& publicIfaces,
    eps := (endpoints w q r).map (expectedEp o (w.di q.device)),
    bm := r.policy.toNat }

/-- The calls up to and including the first one that stops. -/
def upTo (stop : Report → Bool) : List Report → List Report
  | [] => []
  | r :: l => if stop r then [r] else r :: upTo stop l

end Verif.Discovery
