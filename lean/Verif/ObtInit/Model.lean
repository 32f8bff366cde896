import Verif.Rep.Model
import Verif.Sec.Base

/-!
Model of the start of an onboarding tool (security/oc_obt.c:3813-3851): owning its
own device, making the keys of its domain (the root of its certificates and the group
secret of OSCORE), saving them and loading them after a restart, with crashes between
the writes.

Simplifications: `OC_PKI` and `OC_OSCORE` are built; CBOR is left out (what is parsed
is what was encoded); a write to the storage is done or not done; of the stored
security resources only `isop` and the trust anchors are kept; generating keys and
certificates is an arbitrary result; the memory after an array of the code is not used.
-/

namespace Verif.ObtInit

open Verif.Rep (Bytes b Val Rep)

/-- security/oc_keypair_internal.h:36 `OC_ECDSA_PRIVKEY_SIZE`. -/
def keyMax : Nat := 200
/-- messaging/coap/oscore_constants.h:24 `OSCORE_CTXID_LEN`. -/
def gidLen : Nat := 7
/-- messaging/coap/oscore_constants.h:27 `OSCORE_MASTER_SECRET_LEN`. -/
def secretLen : Nat := 32

/-- security/oc_obt.c:122-129: `g_private_key` up to `g_private_key_size`,
`g_root_cert_credid`, `g_groupid`, `g_group_secret`. -/
structure Keys where
  key : Bytes
  credid : Int
  gid : Bytes
  secret : Bytes
  deriving DecidableEq

/-- security/oc_obt.c:122-129: the initial values. -/
def zero : Keys := ⟨[], 0, List.replicate gidLen 0, List.replicate secretLen 0⟩

/-- security/oc_obt.c:389-394 `gen_oscore_ctxid` with the random bytes `rnd`. -/
def genCtxid (rnd : Bytes) (group : Bool) : Bytes := rnd.set 0 (if group then 2 else 1)

/-- security/oc_obt.c:276-309 `oc_obt_dump_state`: what is encoded. -/
def dump (g : Keys) : Rep :=
  [(b "private_key", .bytes g.key), (b "credid", .int g.credid), (b "groupid", .bytes g.gid),
    (b "group_secret", .bytes g.secret)]

/-- `memcpy` of `n` bytes of a byte string, which has a zero after its last byte
(api/oc_rep_decode.c:320-334). -/
def copy (n : Nat) (s : Bytes) : Out Bytes := if n ≤ s.length + 1 then .ok ((s ++ [0]).take n) else .ub

/-- security/oc_obt.c:333-379: one property of the stored state. -/
def loadProp (g : Keys) (p : Bytes × Val) : Out Keys :=
  match p.2 with
  | .int i => .ok (if p.1 = b "credid" then { g with credid := Sec.toInt32 i } else g)
  | .bytes s =>
    if p.1 = b "private_key" then (if s.length ≤ keyMax then .ok { g with key := s } else .ub)
    else if p.1 = b "groupid" then (copy gidLen s).bind fun x => .ok { g with gid := x }
    else if p.1 = b "group_secret" then (copy secretLen s).bind fun x => .ok { g with secret := x }
    else .ok g
  | _ => .ok g

/-- security/oc_obt.c:311-384 `oc_obt_load_state`: the properties in order. -/
def load : Rep → Keys → Out Keys
  | [], g => .ok g
  | p :: l, g => (loadProp g p).bind (load l)

/-- What is stored: `isop` of pstat, the trust anchors (id and certificate) among the
credentials, and `obt_state`. -/
structure Disk where
  op : Bool
  anchors : List (Int × Bytes)
  state : Option Rep

/-- The same in memory, and the keys. -/
structure Mem where
  op : Bool
  anchors : List (Int × Bytes)
  keys : Keys

/-- What the environment does in one call: whether the device has a UUID, random
bytes, the generated private key, the certificate, the id of the new credential, and
whether the state can be encoded and written. -/
structure Env where
  uuid : Bool
  gid : Bytes
  secret : Bytes
  pair : Option Bytes
  cert : Option Bytes
  id : Option Int
  dump : Bool

/-- security/oc_obt.c:3813-3851 `oc_obt_init`, with security/oc_security.c:109-135
`oc_sec_self_own`, security/oc_obt.c:3783-3810 `oc_obt_generate_root_cred` and
security/oc_obt_certs.c:68-95: the result, the memory and what the storage has after
each write. -/
def init (e : Env) (m : Mem) (d : Disk) : Out (Int × Mem × List Disk) :=
  if m.op then
    match d.state with
    | none => .ok (0, m, [])
    | some r => (load r m.keys).bind fun g => .ok (0, { m with keys := g }, [])
  else if !e.uuid then .ok (-1, m, [])
  else
    let d1 := { d with op := true }
    let d2 := { d1 with anchors := m.anchors }
    let g1 := { m.keys with gid := genCtxid e.gid true, secret := e.secret }
    let failed (g : Keys) : Out (Int × Mem × List Disk) := .ok (-1, ⟨true, m.anchors, { g with credid := -1 }⟩, [d1, d2])
    match e.pair with
    | none => failed g1
    | some k =>
      match e.cert, e.id with
      | some c, some i =>
        let g := { g1 with key := k, credid := i }
        let a := m.anchors ++ [(i, c)]
        let d3 := { d2 with anchors := a }
        if i ≤ 0 then .ok (-1, ⟨true, a, g⟩, [d1, d2, d3])
        else if e.dump then .ok (0, ⟨true, a, g⟩, [d1, d2, d3, { d3 with state := some (dump g) }])
        else .ok (0, ⟨true, a, g⟩, [d1, d2, d3])
      | _, _ => failed { g1 with key := k }

/-- A start of the process: the stored security resources are loaded, the keys are
not yet (security/oc_obt.c:122-129). -/
def boot (d : Disk) : Mem := ⟨d.op, d.anchors, zero⟩

/-- The process and its storage. -/
structure St where
  mem : Mem
  disk : Disk

/-- The tool is started, crashes in its start after `k` writes, or the process is
restarted. -/
inductive Op where
  | init (e : Env)
  | crash (e : Env) (k : Nat)
  | boot

/-- What the storage has after the last of some writes (modelling convention). -/
def after (d : Disk) (l : List Disk) : Disk := l.getLast?.getD d

/-- One event. -/
def step (s : St) : Op → Out St
  | .init e => (init e s.mem s.disk).bind fun x => .ok ⟨x.2.1, after s.disk x.2.2⟩
  | .crash e k => (init e s.mem s.disk).bind fun x =>
    let d := after s.disk (x.2.2.take k)
    .ok ⟨boot d, d⟩
  | .boot => .ok ⟨boot s.disk, s.disk⟩

/-- A history. -/
def run : List Op → St → Out St
  | [], s => .ok s
  | o :: l, s => (step s o).bind (run l)

end Verif.ObtInit
