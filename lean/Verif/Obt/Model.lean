import Verif.Common
/-!
Model of the onboarding tool: `security/oc_obt.c` (caches of devices, hard reset,
pairwise credentials, access control entries), `security/oc_obt_otm_justworks.c`,
`security/oc_obt_otm_randompin.c` and `security/oc_obt_otm_cert.c`.

Simplifications: UUIDs are numbers; a cached device (`oc_device_t`) is a record in a
heap with a number as its address; the devices of the network are records of what the
requests of the tool change; a request is applied at the moment it is answered; a
request that is answered with success has been applied.  A context has a number that
is not used again.  TLS sessions are numbers both ends know.  Memory can be allocated.
Only the requests of the tool and an explicit step `env` change devices.
-/
namespace Verif.Obt

/-- A UUID. -/
abbrev Id := Nat

/-- Ownership transfer method, `oc_sec_doxmtype_t`, include/oc_pki.h and
security/oc_doxm_internal.h: just works 0, random PIN 1, certificate 2. -/
inductive Method where
  | jw | rdp | cert
  deriving DecidableEq, Repr

/-- Number of a method, security/oc_doxm_internal.h (`OC_OXMTYPE_*`). -/
def Method.oxm : Method → Nat
  | .jw => 0
  | .rdp => 1
  | .cert => 2

/-- A key derived by `oc_sec_derive_owner_psk`, security/oc_tls.c (C118): a function of
the name of the method, the secrets of the session, the device and the owner. -/
structure Key where
  oxm : Nat
  sess : Nat
  dev : Id
  owner : Id
  deriving DecidableEq, Repr

/-- State of a device, `oc_dostype_t`, security/oc_pstat_internal.h. -/
inductive Dos where
  | reset | rfotm | rfpro | rfnop
  deriving DecidableEq, Repr

/-- What the requests of a tool change at a device: /oic/sec/doxm, pstat, acl2, cred,
sdi. -/
structure Dev where
  uuid : Id := 0
  sel : Nat := 0
  om : Nat := 0
  sess : Nat := 0
  devowner : Id := 0
  rowDoxm : Id := 0
  rowAcl : Id := 0
  rowPstat : Id := 0
  rowCred : Id := 0
  key : Option Key := none
  sdi : Id := 0
  owned : Bool := false
  dos : Dos := .rfotm
  acl : List (Id × Bool) := []
  aces : List Nat := []
  peers : List (Id × Nat) := []
  deriving DecidableEq, Repr

/-- Requests of the sequences, security/oc_obt_otm_justworks.c:670-688,
security/oc_obt_otm_randompin.c:600-618, security/oc_obt.c:836-966, 1480-1702,
2596-2771.  `toRfpro2`, `cred2`, `toRfnop2` go to the second device of a pair. -/
inductive Req where
  | getDoxm
  | sel (oxm : Nat)
  | om4
  | devowner (o : Id)
  | devuuid (u : Id)
  | rowDoxm (o : Id)
  | rowAcl (o : Id)
  | rowPstat (o : Id)
  | cred (o : Id)
  | sdi (d : Id)
  | owned
  | rfpro
  | delAcl
  | postAcl (o : Id) (sdi : Bool)
  | rfnop
  | toReset
  | toRfpro1
  | toRfpro2
  | cred1 (u : Id) (k : Nat)
  | cred2 (u : Id) (k : Nat)
  | ace (n : Nat)
  | toRfnop1
  | toRfnop2
  deriving DecidableEq, Repr

/-- Requests over an unsecured endpoint, security/oc_obt_otm_justworks.c:655, 717;
all others use a secured one. -/
def Req.plain : Req → Bool
  | .getDoxm | .sel _ => true
  | _ => false

/-- The request goes to the second device of a pair. -/
def Req.second : Req → Bool
  | .toRfpro2 | .cred2 _ _ | .toRfnop2 => true
  | _ => false

/-- Effect of an accepted request on a device (C34, C36, C118 model these in detail).
`sess` is the session opened with the request that opens one. -/
def Req.apply (sess : Nat) (d : Dev) : Req → Dev
  | .getDoxm => d
  | .sel oxm => { d with sel := oxm }
  | .om4 => { d with om := 4, sess := sess }
  | .devowner o => { d with devowner := o }
  | .devuuid u => { d with uuid := u }
  | .rowDoxm o => { d with rowDoxm := o }
  | .rowAcl o => { d with rowAcl := o }
  | .rowPstat o => { d with rowPstat := o }
  | .cred o => { d with rowCred := o, key := some ⟨d.sel, d.sess, d.uuid, o⟩ }
  | .sdi x => { d with sdi := x }
  | .owned => { d with owned := true }
  | .rfpro | .toRfpro1 | .toRfpro2 => { d with dos := .rfpro }
  | .delAcl => { d with acl := [] }
  | .postAcl o s => { d with acl := d.acl ++ [(o, s)] }
  | .rfnop | .toRfnop1 | .toRfnop2 => { d with dos := .rfnop }
  | .toReset => { uuid := d.uuid, sess := d.sess, dos := .reset }
  | .cred1 u k | .cred2 u k => { d with peers := d.peers ++ [(u, k)] }
  | .ace n => { d with aces := d.aces ++ [n] }

/-- `oc_device_t`, security/oc_obt_internal.h:46-53; `addr` stands for its endpoints,
`sec` whether one of them is secured. -/
structure Handle where
  id : Nat
  uuid : Id
  addr : Nat
  sec : Bool
  deriving DecidableEq, Repr

/-- Sequences: ownership transfer, request of a PIN, hard reset, pairwise credentials,
an access control entry. -/
inductive Kind where
  | otm (m : Method)
  | pin
  | reset
  | pair
  | ace (n : Nat)
  deriving DecidableEq, Repr

/-- `oc_otm_ctx_t`, `oc_hard_reset_ctx_t`, `oc_credprov_ctx_t`, `oc_acl2prov_ctx_t`
(with their `oc_switch_dos_ctx_t`), security/oc_obt_internal.h:80-119, 182-190; `h2` is
the second device of a pair. -/
structure Ctx where
  id : Nat
  kind : Kind
  h : Nat
  h2 : Nat
  sdi : Bool := false
  deriving DecidableEq, Repr

/-- An outstanding request: its context, the address it was sent to and whether that
endpoint is secured. -/
structure Pend where
  ctx : Nat
  req : Req
  addr : Nat
  sec : Bool
  deriving DecidableEq, Repr

/-- A credential of the tool, `oc_sec_cred_t`; `key = none` is the key of a PIN. -/
structure Cred where
  subj : Id
  owner : Bool
  key : Option Key
  deriving DecidableEq, Repr

/-- A call of the application: the context, the cached device, the UUID it is told,
success, and at that moment: the UUID of the second device, the credentials of the tool
for the device, the two devices. -/
structure Cb where
  ctx : Nat
  kind : Kind
  h : Nat
  uuid : Id
  ok : Bool
  uuid2 : Id
  kept : List Cred
  dev : Dev
  dev2 : Dev
  deriving DecidableEq, Repr

/-- State of the tool (`oc_cache`, `oc_devices`, `oc_otm_ctx_l` and the other lists of
contexts, security/oc_obt.c:60-117, its credentials) and of the network.  `eps` are the
devices with an outstanding request for their endpoints. -/
structure St where
  me : Id
  domain : Id
  net : Nat → Dev
  heap : List Handle := []
  cache : List Nat := []
  devs : List Nat := []
  creds : List Cred := []
  ctxs : List Ctx := []
  pend : List Pend := []
  eps : List Nat := []
  next : Nat := 0
  log : List Cb := []

/-- Access to a cached device; `none` if it has been freed. -/
def St.handle (s : St) (h : Nat) : Option Handle := s.heap.find? (·.id == h)

/-- `get_device_handle`, security/oc_obt.c:151-163. -/
def lookup (s : St) (u : Id) : List Nat → Out (Option Handle)
  | [] => .ok none
  | i :: is =>
    match s.handle i with
    | none => .ub
    | some h => if h.uuid = u then .ok (some h) else lookup s u is

/-- `oc_obt_is_owned_device`, security/oc_obt.c:177-191. -/
def isOwned (s : St) (u : Id) : Bool := s.creds.any fun c => c.subj == u && c.owner

/-- `oc_cred_remove_by_subject`, security/oc_cred.c:287-296: the first one. -/
def removeBy (u : Id) : List Cred → List Cred
  | [] => []
  | c :: cs => if c.subj = u then cs else c :: removeBy u cs

/-- `free_device`, security/oc_obt.c:264-273; a device that was freed before is
undefined behaviour. -/
def freeDevice (s : St) (h : Nat) : Out St :=
  match s.handle h with
  | none => .ub
  | some _ => .ok { s with heap := s.heap.filter (·.id != h), cache := s.cache.filter (· != h), devs := s.devs.filter (· != h) }

/-- Record of a call of the application. -/
def logCb (s : St) (c : Ctx) (h h2 : Handle) (ok : Bool) : St :=
  { s with log := s.log ++ [⟨c.id, c.kind, h.id, h.uuid, ok, h2.uuid, s.creds.filter (·.subj == h.uuid),
      s.net h.addr, s.net h2.addr⟩] }

/-- End of a sequence: `free_otm_state` security/oc_obt.c:434-457, `free_hard_reset_ctx`
899-923, `free_credprov_state` 1447-1472, `free_acl2prov_state` 2572-2588.  `react` is
what the application does in its callback.  Closing of the session is left out. -/
def finish (react : St → Id → Out St) (s : St) (c : Ctx) (ok : Bool) : Out St :=
  if s.ctxs.any (·.id == c.id) then
    let s := { s with ctxs := s.ctxs.filter (·.id != c.id) }
    match s.handle c.h with
    | none => .ub
    | some h =>
      match c.kind with
      | .otm _ =>
        if ok then
          let s := { s with cache := s.cache.filter (· != h.id), devs := s.devs.filter (· != h.id) ++ [h.id] }
          react (logCb s c h h true) h.uuid
        else
          let s := { s with creds := removeBy h.uuid s.creds }
          (react (logCb s c h h false) h.uuid).bind fun s => freeDevice s h.id
      | .pin =>
        if ok then react (logCb s c h h true) h.uuid
        else
          let s := { s with creds := removeBy h.uuid s.creds }
          (react (logCb s c h h false) h.uuid).bind fun s => freeDevice s h.id
      | .reset =>
        let s := if ok then { s with creds := removeBy h.uuid s.creds } else s
        (react (logCb s c h h ok) h.uuid).bind fun s => freeDevice s h.id
      | .pair =>
        match s.handle c.h2 with
        | none => .ub
        | some h2 => react (logCb s c h h2 ok) h.uuid
      | .ace _ => react (logCb s c h h ok) h.uuid
  else .ok s

/-- A request for a context, `oc_init_post` and `oc_do_post` (or `oc_do_get`,
`oc_do_delete`); without it the sequence fails. -/
def send (react : St → Id → Out St) (s : St) (c : Ctx) (sent : Bool) (r : Req) : Out St :=
  match s.handle (if r.second then c.h2 else c.h) with
  | none => .ub
  | some h =>
    if sent then .ok { s with pend := s.pend ++ [⟨c.id, r, h.addr, h.sec⟩] }
    else finish react s c false

/-- `oc_obt_perform_just_works_otm` security/oc_obt_otm_justworks.c:689-725,
`oc_obt_perform_cert_otm` security/oc_obt_otm_cert.c, `oc_obt_perform_random_pin_otm`
security/oc_obt_otm_randompin.c:619-691, `oc_obt_request_random_pin` 767-801,
`oc_obt_device_hard_reset` security/oc_obt.c:936-966, `oc_obt_provision_pairwise_credentials`
1662-1702 and `oc_obt_provision_ace` 2738-2770 for the device `u` (and `u2`).  `sent`: the
first request could be sent; `cred`: the credential of the PIN could be added.  The
result is true for 0. -/
def start (react : St → Id → Out St) (s : St) (k : Kind) (u u2 : Id) (sent cred : Bool) : Out (St × Bool) :=
  match k with
  | .otm m =>
    (lookup s u s.cache).bind fun o =>
    match o with
    | none => .ok (s, false)
    | some h =>
      let s := if isOwned s u then { s with creds := removeBy u s.creds } else s
      let c : Ctx := ⟨s.next, k, h.id, h.id, false⟩
      let s := { s with next := s.next + 1, ctxs := s.ctxs ++ [c] }
      if m = .rdp then
        -- security/oc_obt_otm_randompin.c:659-662: the context has no device yet
        if cred = false then .ub
        else if sent then
          (send react { s with creds := s.creds ++ [⟨u, false, none⟩] } c true .om4).bind fun s => .ok (s, true)
        else (finish react s c false).bind fun s => .ok (s, false)
      else
        (send react s c sent .getDoxm).bind fun s => .ok (s, sent)
  | .pin =>
    if isOwned s u then .ok (s, false) else
    (lookup s u s.cache).bind fun o =>
    match o with
    | none => .ok (s, false)
    | some h =>
      let c : Ctx := ⟨s.next, k, h.id, h.id, false⟩
      let s := { s with next := s.next + 1, ctxs := s.ctxs ++ [c] }
      (send react s c sent .getDoxm).bind fun s => .ok (s, sent)
  | .reset | .ace _ =>
    if isOwned s u = false then .ok (s, false) else
    (lookup s u s.devs).bind fun o =>
    match o with
    | none => .ok (s, false)
    | some h =>
      if sent = false then .ok (s, false) else
      let c : Ctx := ⟨s.next, k, h.id, h.id, false⟩
      let s := { s with next := s.next + 1, ctxs := s.ctxs ++ [c] }
      (send react s c true (if k = .reset then .toReset else .toRfpro1)).bind fun s => .ok (s, true)
  | .pair =>
    if isOwned s u = false || isOwned s u2 = false then .ok (s, false) else
    (lookup s u s.devs).bind fun o =>
    (lookup s u2 s.devs).bind fun o2 =>
    match o, o2 with
    | some h, some h2 =>
      if sent = false then .ok (s, false) else
      let c : Ctx := ⟨s.next, k, h.id, h2.id, false⟩
      let s := { s with next := s.next + 1, ctxs := s.ctxs ++ [c] }
      (send react s c true .toRfpro1).bind fun s => .ok (s, true)
    | _, _ => .ok (s, false)

/-- What the network and the environment decide about an answer: the code
(`oc_status_t`, include/oc_ri.h:75-107), whether the device applied the request although
it did not report success, the methods it offers (`none`: no array `oxms`), a random
UUID, a new session, a random key, whether the next request can be sent, whether a key
can be derived and stored. -/
structure Resp where
  code : Nat := 0
  applied : Bool := false
  oxms : Option (List Nat) := none
  fresh : Id := 0
  sess : Nat := 0
  secret : Nat := 0
  sent : Bool := true
  derived : Bool := true
  deriving DecidableEq, Repr

/-- `OC_STATUS_BAD_REQUEST`, include/oc_ri.h:81. -/
abbrev badRequest : Nat := 5
/-- `OC_STATUS_UNAUTHORIZED`, include/oc_ri.h:82. -/
abbrev unauthorized : Nat := 6
/-- `OC_STATUS_NOT_FOUND`, include/oc_ri.h:85. -/
abbrev notFound : Nat := 9
/-- `OC_REQUEST_TIMEOUT`, include/oc_ri.h:99. -/
abbrev requestTimeout : Nat := 23
/-- `OC_CONNECTION_CLOSED`, include/oc_ri.h:103. -/
abbrev connectionClosed : Nat := 24

/-- The method of a transfer. -/
def Kind.oxm : Kind → Nat
  | .otm m => m.oxm
  | _ => Method.rdp.oxm

/-- The code the tool gets: a device refuses requests of the sequences over a
connection that is not secured, and a handshake by another method than the selected
one fails (C116, C117). -/
def codeOf (p : Pend) (k : Kind) (d : Dev) (r : Resp) : Nat :=
  if p.req.plain = false ∧ p.sec = false then max r.code unauthorized
  else if p.req = .om4 ∧ d.sel ≠ k.oxm then max r.code connectionClosed
  else r.code

/-- The device after the answer. -/
def devOf (p : Pend) (k : Kind) (d : Dev) (r : Resp) : Dev :=
  if codeOf p k d r < badRequest ∨ (codeOf p k d r = r.code ∧ r.applied = true) then p.req.apply r.sess d else d

/-- The answer is one the sequence goes on with: `data->code >= OC_STATUS_BAD_REQUEST`
in all handlers; security/oc_obt_otm_justworks.c:270-277 for the security domain,
security/oc_obt.c:844 for changes of the state. -/
def goesOn (r : Req) (code : Nat) : Bool :=
  match r with
  | .sdi _ => code < badRequest || code == notFound
  | .toReset | .toRfpro1 | .toRfpro2 | .toRfnop1 | .toRfnop2 => code < badRequest || code == requestTimeout
  | _ => code < badRequest

/-- Handlers of answers: `obt_jw_2` ... `obt_jw_16`, `obt_rdp_2` ... `obt_rdp_14`,
`obt_rrdp_2`, `obt_rrdp_3`, `hard_reset_cb`, `device1_RFPRO` ... `device2_RFNOP`,
`provision_ace`, `acl2_response`, `provision_ace_complete`. -/
def handler (react : St → Id → Out St) (s : St) (c : Ctx) (h : Handle) (req : Req) (code : Nat) (r : Resp) : Out St :=
  if goesOn req code = false then finish react s c false
  else match req with
  | .getDoxm =>
    match r.oxms with
    | none => finish react s c false
    | some l => if c.kind.oxm ∈ l then send react s c r.sent (.sel c.kind.oxm) else finish react s c false
  | .sel _ => if c.kind = .pin then finish react s c true else send react s c r.sent .om4
  | .om4 => send react s c r.sent (.devowner s.me)
  | .devowner _ =>
    let s := if c.kind = .otm .rdp then { s with creds := removeBy h.uuid s.creds } else s
    let s := { s with heap := s.heap.map fun x => if x.id = h.id then { x with uuid := r.fresh } else x }
    send react s c r.sent (.devuuid r.fresh)
  | .devuuid _ => send react s c r.sent (.rowDoxm s.me)
  | .rowDoxm _ => send react s c r.sent (.rowAcl s.me)
  | .rowAcl _ => send react s c r.sent (.rowPstat s.me)
  | .rowPstat _ =>
    if r.derived = false then finish react s c false
    else
      let s := { s with creds := s.creds ++ [⟨h.uuid, true, some ⟨c.kind.oxm, (s.net h.addr).sess, h.uuid, s.me⟩⟩] }
      send react s c r.sent (.cred s.me)
  | .cred _ => send react s c r.sent (.sdi s.domain)
  | .sdi _ =>
    let c := { c with sdi := code != notFound }
    send react { s with ctxs := s.ctxs.map fun x => if x.id = c.id then c else x } c r.sent .owned
  | .owned => send react s c r.sent .rfpro
  | .rfpro => send react s c r.sent .delAcl
  | .delAcl => send react s c r.sent (.postAcl s.me c.sdi)
  | .postAcl _ _ => send react s c r.sent .rfnop
  | .rfnop => finish react s c true
  | .toReset => finish react s c true
  | .toRfpro1 =>
    match c.kind with
    | .ace n => send react s c r.sent (.ace n)
    | _ => send react s c r.sent .toRfpro2
  | .toRfpro2 =>
    match s.handle c.h2 with
    | none => .ub
    | some h2 => send react s c r.sent (.cred1 h2.uuid r.secret)
  | .cred1 _ k => send react s c r.sent (.cred2 h.uuid k)
  | .cred2 _ _ => send react s c r.sent .toRfnop1
  | .ace _ => send react s c r.sent .toRfnop1
  | .toRfnop1 =>
    match c.kind with
    | .ace _ => finish react s c true
    | _ => send react s c r.sent .toRfnop2
  | .toRfnop2 => finish react s c true

/-- An answer for the request of a context arrives (or its failure is reported).  The
context is checked first, security/oc_obt.c:402-419. -/
def respond (react : St → Id → Out St) (s : St) (i : Nat) (r : Resp) : Out St :=
  match s.pend.find? (·.ctx == i) with
  | none => .ok s
  | some p =>
    let s := { s with pend := s.pend.filter (·.ctx != i) }
    match s.ctxs.find? (·.id == i) with
    | none => .ok s
    | some c =>
      let d := s.net p.addr
      let s := { s with net := fun a => if a = p.addr then devOf p c.kind d r else s.net a }
      match s.handle c.h with
      | none => .ub
      | some h => handler react s c h p.req (codeOf p c.kind d r) r

/-- `cache_new_device`, security/oc_obt.c:226-262, for one of the two lists; true in the
result if the device is in it already. -/
def cacheNew (s : St) (u : Id) (a : Nat) (sec : Bool) (l : List Nat) : Out (St × Nat × Bool) :=
  (lookup s u l).bind fun o =>
  match o with
  | some h => .ok ({ s with heap := s.heap.map fun x => if x.id = h.id then { x with addr := a, sec := sec } else x }, h.id, true)
  | none => .ok ({ s with heap := s.heap ++ [⟨s.next, u, a, sec⟩], next := s.next + 1 }, s.next, false)

/-- Steps. -/
inductive Op where
  /-- A call of the application. -/
  | start (k : Kind) (u u2 : Id) (sent cred : Bool)
  /-- An answer; `again` is a transfer the application starts in the callback. -/
  | respond (i : Nat) (r : Resp) (again : Option (Kind × Bool))
  /-- An answer of the device at an address to the discovery of devices without owner,
  `obt_check_owned`, security/oc_obt.c:609-661. -/
  | discover (a : Nat)
  /-- The answer with the endpoints of a device, `get_endpoints`, security/oc_obt.c:547-607;
  `sec`: one of them is secured. -/
  | endpoints (h : Nat) (sec : Bool)
  /-- An answer to the discovery of owned devices, security/oc_obt.c:585-606. -/
  | discoverOwned (a : Nat)
  /-- Somebody else changes a device. -/
  | env (a : Nat) (d : Dev)
  deriving Repr

/-- A callback that does nothing. -/
def quiet : St → Id → Out St := fun s _ => .ok s

/-- A callback that starts a sequence for the device it is told about. -/
def retry (again : Option (Kind × Bool)) : St → Id → Out St :=
  match again with
  | none => quiet
  | some (k, sent) => fun s u => (start quiet s k u u sent true).bind fun r => .ok r.1

/-- One step. -/
def step (s : St) : Op → Out St
  | .start k u u2 sent cred => (start quiet s k u u2 sent cred).bind fun r => .ok r.1
  | .respond i r again => respond (retry again) s i r
  | .discover a =>
    let d := s.net a
    if d.owned || d.uuid == s.me then .ok s
    else (cacheNew s d.uuid a false s.cache).bind fun r =>
      .ok { r.1 with cache := if r.2.2 then r.1.cache else r.1.cache ++ [r.2.1], eps := r.1.eps ++ [r.2.1] }
  | .endpoints h sec =>
    if h ∈ s.eps then
      match s.handle h with
      | none => .ub
      | some _ => .ok { s with eps := s.eps.erase h, heap := s.heap.map fun x => if x.id = h then { x with sec := sec } else x }
    else .ok s
  | .discoverOwned a =>
    let d := s.net a
    if isOwned s d.uuid && d.uuid != s.me then
      (cacheNew s d.uuid a true s.devs).bind fun r =>
        .ok { r.1 with devs := if r.2.2 then r.1.devs else r.1.devs ++ [r.2.1] }
    else .ok s
  | .env a d => .ok { s with net := fun x => if x = a then d else s.net x }

/-- A history. -/
def run (s : St) : List Op → Out St
  | [] => .ok s
  | op :: ops => (step s op).bind fun s => run s ops

end Verif.Obt
