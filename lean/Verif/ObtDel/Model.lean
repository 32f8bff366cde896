import Verif.Acl.Update
import Verif.Cred.Model

/-!
Model of how an onboarding tool deletes an access control entry or a credential of
a device by its id: the sequence of security/oc_obt.c (switch the device to RFPRO,
DELETE, switch it to RFNOP) together with what the device does
(security/oc_acl.c, security/oc_cred.c).

Simplifications: a device handles a request at most once (repeated requests are the message layer's);
the device's access control and its checks of state changes are an arbitrary
answer; the handle of the device stays (hard resets are left out); contexts have numbers
that are not used again; closing the TLS session is left out.
-/

namespace Verif.ObtDel

open Verif.Acl (Ace AclState Dos)
open Verif.Cred (Cred)

/-- What is deleted: `oc_obt_delete_ace_by_aceid` or `oc_obt_delete_cred_by_credid`,
security/oc_obt.c:3113-3146, 3445-3479. -/
inductive Kind where
  | ace | cred
  deriving DecidableEq

/-- What a device has: its state (`oc_sec_pstat_t.s`), its list of access control
entries and its credentials. -/
structure Dev where
  dos : Dos
  acl : AclState
  creds : List Cred

/-- The request that a context waits for: `creddel_RFPRO`/`acedel_RFPRO`, `cred_del`/
`ace_del`, `creddel_RFNOP`/`acedel_RFNOP`. -/
inductive Stage where
  | toRfpro | del | toRfnop
  deriving DecidableEq

/-- `oc_creddel_ctx_t`, `oc_acedel_ctx_t` (security/oc_obt_internal.h) and its
outstanding request: `reply` is the answer that the device gave to it, if it has. -/
structure Ctx where
  id : Nat
  dev : Nat
  kind : Kind
  num : Int
  stage : Stage
  reply : Option Nat

/-- What happened, in order: a request of the application that returned 0, a deletion
by a device, a change of its state, a callback with 0 (`ok`) or -1 (history, no code). -/
inductive Ev where
  | started (id dev : Nat) (k : Kind) (n : Int)
  | deleted (id dev : Nat) (k : Kind) (n : Int)
  | switched (id dev : Nat) (d : Dos)
  | told (id : Nat) (ok : Bool)

/-- The devices of the network and the tool (`oc_creddel_ctx_l`, `oc_acedel_ctx_l`). -/
structure St where
  devs : Nat → Dev
  ctxs : List Ctx := []
  made : Nat := 0
  log : List Ev := []

/-- include/oc_ri.h:81 `OC_STATUS_BAD_REQUEST`. -/
def badRequest : Nat := 5
/-- include/oc_ri.h:78 `OC_STATUS_CHANGED`. -/
def changed : Nat := 2
/-- include/oc_ri.h:79 `OC_STATUS_DELETED`. -/
def deletedCode : Nat := 3
/-- include/oc_ri.h:84 `OC_STATUS_FORBIDDEN`. -/
def forbidden : Nat := 8
/-- include/oc_ri.h:85 `OC_STATUS_NOT_FOUND`. -/
def notFound : Nat := 9
/-- include/oc_ri.h:99 `OC_REQUEST_TIMEOUT`. -/
def requestTimeout : Nat := 23

/-- security/oc_acl.c:503-540 `acl_resource_delete` for the query that
`acedel_RFPRO` makes (security/oc_obt.c:3431-3432); `strtoul` of the decimal text of an
`int` is the number modulo 2^64. -/
def deleteAce (n : Int) (d : Dev) : Nat × Dev :=
  if d.dos = .rfnop then (forbidden, d)
  else
    let x := Acl.deleteAcl d.dos (some (BitVec.ofInt 64 n)) d.acl
    (if x.1 then deletedCode else notFound, { d with acl := x.2 })

/-- security/oc_cred.c:1553-1586 `cred_resource_delete` for the query that
`creddel_RFPRO` makes (security/oc_obt.c:3099-3100). -/
def deleteCred (n : Int) (d : Dev) : Nat × Dev :=
  if d.dos = .rfnop then (forbidden, d)
  else if n > intMax ∨ n < 0 then (notFound, d)
  else match Cred.getById d.creds n with
    | none => (notFound, d)
    | some _ => (deletedCode, { d with creds := Cred.eraseId n d.creds })

/-- The DELETE of a context. -/
def delete (k : Kind) (n : Int) (d : Dev) : Nat × Dev :=
  match k with
  | .ace => deleteAce n d
  | .cred => deleteCred n d

/-- A change of state as requested by `switch_dos` (security/oc_obt.c:852-895). -/
def switch (t : Dos) (d : Dev) : Nat × Dev := (changed, { d with dos := t })

/-- Another value of a function at one place (modelling convention). -/
def put (f : Nat → Dev) (i : Nat) (x : Dev) : Nat → Dev := fun j => if j = i then x else f j

/-- Another context in the place of one (modelling convention). -/
def replace (c : Ctx) (l : List Ctx) : List Ctx := l.map fun x => if x.id = c.id then c else x

/-- The context of a number, if it is pending: `is_item_in_list`,
security/oc_obt.c:402-413. -/
def find (i : Nat) (s : St) : Option Ctx := s.ctxs.find? fun c => c.id == i

/-- The request of a context reaches its device, which refuses it (`ok` is false) or
carries it out. -/
def serve (i : Nat) (ok : Bool) (s : St) : St :=
  match find i s with
  | none => s
  | some c =>
    match c.reply with
    | some _ => s
    | none =>
      if !ok then { s with ctxs := replace { c with reply := some forbidden } s.ctxs }
      else match c.stage with
        | .toRfpro =>
          let x := switch .rfpro (s.devs c.dev)
          { s with
            devs := put s.devs c.dev x.2, ctxs := replace { c with reply := some x.1 } s.ctxs
            log := s.log ++ [.switched i c.dev .rfpro] }
        | .del =>
          let x := delete c.kind c.num (s.devs c.dev)
          { s with
            devs := put s.devs c.dev x.2, ctxs := replace { c with reply := some x.1 } s.ctxs
            log := s.log ++ (if x.1 = deletedCode then [.deleted i c.dev c.kind c.num] else []) }
        | .toRfnop =>
          let x := switch .rfnop (s.devs c.dev)
          { s with
            devs := put s.devs c.dev x.2, ctxs := replace { c with reply := some x.1 } s.ctxs
            log := s.log ++ [.switched i c.dev .rfnop] }

/-- security/oc_obt.c:3025-3040 `free_creddel_state`, 3358-3373 `free_acedel_state`. -/
def finish (i : Nat) (ok : Bool) (s : St) : St :=
  { s with ctxs := s.ctxs.filter fun c => c.id != i, log := s.log ++ [.told i ok] }

/-- security/oc_obt.c:835-850 `pstat_POST_dos1_to_dos2`: whether the sequence is told
that the state was changed; so it is when the request timed out. -/
def switchOk (code : Nat) : Bool := !(decide (code ≥ badRequest) && decide (code ≠ requestTimeout))

/-- The tool is called with an answer: security/oc_obt.c:3048-3111 `creddel_RFNOP`,
`cred_del`, `creddel_RFPRO`, and 3381-3443 for access control entries. `next`: the
next request can be issued. -/
def handle (c : Ctx) (code : Nat) (next : Bool) (s : St) : St :=
  match c.stage with
  | .toRfpro =>
    if !switchOk code then finish c.id false s
    else if !next then finish c.id false s
    else { s with ctxs := replace { c with stage := .del, reply := none } s.ctxs }
  | .del =>
    if code ≥ badRequest then finish c.id false s
    else if !next then finish c.id false s
    else { s with ctxs := replace { c with stage := .toRfnop, reply := none } s.ctxs }
  | .toRfnop => finish c.id (switchOk code) s

/-- The answer of the device reaches the tool. -/
def deliver (i : Nat) (next : Bool) (s : St) : St :=
  match find i s with
  | none => s
  | some c =>
    match c.reply with
    | none => s
    | some code => handle c code next s

/-- The tool is told that there is no answer, whether or not the device had the
request: the connection is closed, the transmission timed out, it was cancelled
(include/oc_ri.h:97-106). -/
def fail (i code : Nat) (next : Bool) (s : St) : St :=
  match find i s with
  | none => s
  | some c => handle c code next s

/-- security/oc_obt.c:3113-3146 `oc_obt_delete_cred_by_credid`, 3445-3479
`oc_obt_delete_ace_by_aceid`: `ok` if the device is owned and found, there is memory
and the first request is issued; otherwise -1 is returned. -/
def start (k : Kind) (d : Nat) (n : Int) (ok : Bool) (s : St) : Bool × St :=
  if !ok then (false, s)
  else (true, { s with
    ctxs := s.ctxs ++ [⟨s.made, d, k, n, .toRfpro, none⟩], made := s.made + 1
    log := s.log ++ [.started s.made d k n] })

/-- What can happen; `env`: a device changes for other reasons. -/
inductive Op where
  | start (k : Kind) (d : Nat) (n : Int) (ok : Bool)
  | serve (i : Nat) (ok : Bool)
  | deliver (i : Nat) (next : Bool)
  | fail (i code : Nat) (next : Bool)
  | env (d : Nat) (x : Dev)

/-- One event (see the functions). -/
def step (s : St) : Op → St
  | .start k d n ok => (start k d n ok s).2
  | .serve i ok => serve i ok s
  | .deliver i next => deliver i next s
  | .fail i code next => fail i code next s
  | .env d x => { s with devs := put s.devs d x }

/-- A history (modelling convention). -/
def run : List Op → St → St
  | [], s => s
  | o :: l, s => run l (step s o)

end Verif.ObtDel
