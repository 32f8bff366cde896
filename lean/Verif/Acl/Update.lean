import Verif.Sec.Base

/-!
Model of the changes of the access control list: security/oc_acl.c and the
decoding of ACEs in security/oc_ace.c.

Allocation is assumed to succeed (dynamic allocation; a failure makes the update
of the entry fail).  Failed assertions are the outcome `ub`.
-/

namespace Verif.Acl

open Verif.Rep (Bytes b Val Rep)

/-- security/oc_acl_internal.h `oc_sec_acl_t`: the ACEs and `rowneruuid`. -/
structure AclState where
  aces : List Ace
  owner : Id

/-- security/oc_acl.c:89-100 `acl_unique_aceid`. -/
def uniqueAceid (aceid : Int) : List Ace → Bool
  | [] => true
  | a :: l => if a.aceid = aceid then false else uniqueAceid aceid l

/-- security/oc_acl.c:102-110 `acl_get_new_aceid` with the results of the random
generator; `none` if it has not yet returned after these. -/
def newAceid (aces : List Ace) : List (BitVec 32) → Option Int
  | [] => none
  | r :: l =>
    let aceid : Int := (r >>> 1).toNat
    if uniqueAceid aceid aces then some aceid else newAceid aces l

/-- The ids that `acl_get_new_aceid` returns during an operation: a function of the
list (simplification: within one operation the same list gets the same id);
`none` if the loop does not end (all ids are used, or the random generator never
returns an unused one). -/
structure Fresh where
  id : List Ace → Option Int
  random : ∀ aces k, id aces = some k → ∃ rnd, newAceid aces rnd = some k

/-- security/oc_ace.c:234-241 `oc_ace_has_matching_tag`. -/
def tagMatches (a : Ace) (tag : Option Bytes) : Bool :=
  match tag with
  | none => a.tag.isNone
  | some t => match a.tag with
    | none => false
    | some t' => decide (t' = t)

/-- security/oc_ace.c:271-285: the test of one iteration of
`oc_sec_ace_find_subject` with `match_tag`. -/
def selects (s : Subject) (aceid : Int) (permission : BitVec 16) (tag : Option Bytes) (a : Ace) : Bool :=
  if aceid ≠ -1 ∧ a.aceid ≠ aceid then false
  else if permission ≠ 0 ∧ a.permission ≠ permission then false
  else if !tagMatches a tag then false
  else subjectMatches a.subject s

/-- The first element of a list with a property, with what precedes and follows it
(pointers into the list are modelled by positions). -/
def findSplit {α : Type} (p : α → Bool) : List α → Option (List α × α × List α)
  | [] => none
  | a :: l =>
    if p a then some ([], a, l)
    else match findSplit p l with
      | none => none
      | some (pre, x, post) => some (a :: pre, x, post)

/-- security/oc_ace.c:162-209 `oc_sec_ace_get_or_add_res` with create, and
`oc_sec_add_new_ace_res`: the ACE and whether the entry was created; `none` if it
cannot be. -/
def getOrAddRes (a : Ace) (href : Option Bytes) (wc : Wc) : Out (Option (Ace × Bool)) :=
  match findResource href wc.bits a.resources with
  | _ :: _ => .ok (some (a, false))
  | [] =>
    if wc = .no ∧ href = none then .ok none
    else
      match href with
      | none => .ok (some ({ a with resources := a.resources ++ [⟨none, wc⟩] }, true))
      | some h =>
        if h.head? = some 47 then .ok (some ({ a with resources := a.resources ++ [⟨some h, wc⟩] }, true))
        else .ub

/-- The result of `oc_sec_acl_update_res`: `ace` is the id of the ACE in
`oc_sec_ace_update_data_t`, `none` if it fails. -/
structure Upd where
  ace : Option Int
  created : Bool
  createdRes : Bool
  aces : List Ace

/-- security/oc_acl.c:145-178 `oc_sec_acl_update_res`. That no new id is found
is the outcome `ub` (it does not return). -/
def updateRes (fresh : Fresh) (aces : List Ace) (s : Subject) (aceid : Int) (permission : BitVec 16)
    (tag : Option Bytes) (href : Option Bytes) (wc : Wc) : Out Upd :=
  match findSplit (selects s aceid permission tag) aces with
  | some (pre, a, post) =>
    match getOrAddRes a href wc with
    | .ub => .ub
    | .ok (some (a', c)) => .ok ⟨some a.aceid, false, c, pre ++ a' :: post⟩
    | .ok none => .ok ⟨none, false, false, pre ++ post⟩
  | none =>
    match (if aceid = -1 then fresh.id aces else some aceid) with
    | none => .ub
    | some id =>
      match getOrAddRes ⟨id, s, permission, tag, []⟩ href wc with
      | .ub => .ub
      | .ok (some (a', c)) => .ok ⟨some id, true, c, aces ++ [a']⟩
      | .ok none => .ok ⟨none, false, false, aces⟩

/-- security/oc_acl.c:193-226 `oc_sec_remove_ace_by_aceid` (and
`oc_acl_remove_ace_from_device_by_aceid`): the list without the first ACE of the
id, and whether there was one. -/
def removeByAceid (aceid : Int) (aces : List Ace) : Bool × List Ace :=
  match findSplit (fun a => decide (a.aceid = aceid)) aces with
  | some (pre, _, post) => (true, pre ++ post)
  | none => (false, aces)

/-! ## Decoding -/

/-- security/oc_ace.c:471-477 `ace_subject_decode_t`. -/
structure SubjDec where
  uuid : Option Bytes := none
  role : Option Bytes := none
  authority : Option Bytes := none
  conntype : Option Bytes := none

/-- security/oc_ace.c:482-525: the properties of a subject. -/
def decodeSubjectProps : Rep → SubjDec → Option SubjDec
  | [], d => some d
  | (k, .str v) :: r, d =>
    if k = b "uuid" then decodeSubjectProps r { d with uuid := some v }
    else if k = b "role" then decodeSubjectProps r { d with role := some v }
    else if k = b "authority" then decodeSubjectProps r { d with authority := some v }
    else if k = b "conntype" then decodeSubjectProps r { d with conntype := some v }
    else none
  | _ :: _, _ => none

/-- security/oc_ace.c:43-56 `oc_ace_connection_type_from_string`. -/
def connOfString (s : Bytes) : Option Conn :=
  if s = b "auth-crypt" then some .authCrypt else if s = b "anon-clear" then some .anonClear else none

/-- security/oc_ace.c:512-576 `ace_decode_subject`. -/
def decodeSubject (rep : Rep) : Out (Option Subject) :=
  match decodeSubjectProps rep {} with
  | none => .ok none
  | some d =>
    match d.uuid with
    | some u =>
      if (d.role.isSome || d.authority.isSome) || d.conntype.isSome then .ok none
      else (Sec.parseUuid u).bind fun
        | some id => .ok (some (.uuid id))
        | none => .ok none
    | none =>
      if d.role.isSome || d.authority.isSome then
        match d.role with
        | none => .ok none
        | some role =>
          if d.conntype.isSome then .ok none
          else .ok (some (.role role (d.authority.getD [])))
      else match d.conntype with
        | none => .ok none
        | some c => match connOfString c with
          | none => .ok none
          | some c => .ok (some (.conn c))

/-- security/oc_ace_internal.h `oc_sec_ace_decode_t`. -/
structure AceDec where
  subject : Subject
  aceid : Int
  permission : BitVec 16
  tag : Option Bytes
  resources : List Rep

/-- The value before decoding, security/oc_acl.c:389-391: all zero, that is the
nil UUID as subject, and no aceid. -/
def AceDec.init : AceDec := ⟨.uuid nilId, -1, 0, none, []⟩

/-- security/oc_ace.c:578-656 `ace_decode_property`. Conversions of integers are
modulo 2^16 and 2^32 (implementation-defined for `int`); values are `int64_t`. -/
def decodeProp (k : Bytes) (v : Val) (d : AceDec) : Out (Option AceDec) :=
  match v with
  | .int i =>
    if k = b "permission" then
      if i > 65535 then .ok none else .ok (some { d with permission := BitVec.ofInt 16 i })
    else if k = b "aceid" then
      if i > intMax then .ok none else .ok (some { d with aceid := Sec.toInt32 i })
    else .ok none
  | .str s =>
    if k = b "tag" then .ok (some { d with tag := some s })
    else if k = b "href" then .ok (some d)
    else .ok none
  | .obj o =>
    if k = b "subject" then
      (decodeSubject o).bind fun
        | none => .ok none
        | some s => .ok (some { d with subject := s })
    else .ok none
  | .objs l => if k = b "resources" then .ok (some { d with resources := l }) else .ok none
  | .nil | .arr => if k = b "resources" then .ok (some d) else .ok none
  | _ => .ok none

/-- security/oc_ace.c:658-670 `oc_sec_decode_ace`. -/
def decodeAce : Rep → AceDec → Out (Option AceDec)
  | [], d => .ok (some d)
  | (k, v) :: r, d =>
    (decodeProp k v d).bind fun
      | none => .ok none
      | some d => decodeAce r d

/-- security/oc_ace.c:58-71 `oc_ace_wildcard_from_string`. -/
def wcOfString (s : Bytes) : Option Wc :=
  if s = b "*" then some .all else if s = b "+" then some .secured else if s = b "-" then some .pub else none

/-- security/oc_ace.c:672-728 `ace_decode_resource`. -/
def decodeResource : Rep → Entry → Option Entry
  | [], e => some e
  | (k, .str s) :: r, e =>
    if k = b "href" then decodeResource r { e with href := some s }
    else if k = b "wc" then
      match wcOfString s with
      | none => none
      | some w => decodeResource r { e with wc := w }
    else none
  | (k, .strs _) :: r, e => if k = b "if" then decodeResource r e else none
  | _ :: _, _ => none

/-- The state of the loop over the resources of an ACE: the list, the id of
`dard.ace` (the pointer may dangle, see `decodeAceItem`), and whether the decoding
succeeded so far. -/
structure ResLoop where
  ok : Bool
  last : Option Int
  aces : List Ace

/-- security/oc_ace.c:730-744 `oc_sec_decode_ace_resources` with
security/oc_acl.c:295-343 `acl_decode_ace_resources`. -/
def decodeResources (fresh : Fresh) (d : AceDec) : List Rep → Option Int → List Ace → Out ResLoop
  | [], last, aces => .ok ⟨true, last, aces⟩
  | r :: l, last, aces =>
    match decodeResource r ⟨none, .no⟩ with
    | none => .ok ⟨false, last, aces⟩
    | some e =>
      (updateRes fresh aces d.subject d.aceid d.permission d.tag e.href e.wc).bind fun u =>
        decodeResources fresh d l (match u.ace with | some i => some i | none => last) u.aces

/-- security/oc_acl.c:389-424: one ACE of the payload. `cb` tells whether a callback
is given: it is called with the pointer `dard.ace`, which must not be that of an
ACE removed in the meantime. -/
def decodeAceItem (fresh : Fresh) (cb : Bool) (item : Rep) (aces : List Ace) : Out (Bool × List Ace) :=
  (decodeAce item AceDec.init).bind fun
    | none => .ok (false, aces)
    | some d =>
      let aces := if d.aceid ≠ -1 ∧ uniqueAceid d.aceid aces = false then (removeByAceid d.aceid aces).2 else aces
      (decodeResources fresh d d.resources none aces).bind fun x =>
        if !x.ok then .ok (false, x.aces)
        else match x.last with
          | some id => if cb && uniqueAceid id x.aces then .ub else .ok (true, x.aces)
          | none => .ok (true, x.aces)

/-- security/oc_acl.c:387-425: the ACEs of an array. -/
def decodeAces (fresh : Fresh) (cb : Bool) : List Rep → List Ace → Out (Bool × List Ace)
  | [], aces => .ok (true, aces)
  | r :: l, aces =>
    (decodeAceItem fresh cb r aces).bind fun x => if x.1 then decodeAces fresh cb l x.2 else .ok x

/-- security/oc_acl.c:354-375: the first pass, guards of the device state. -/
def guardAcl (dos : Dos) (fromStorage : Bool) : Rep → Bool
  | [] => true
  | (k, .str _) :: r =>
    if k = b "rowneruuid" ∧ !fromStorage ∧ (dos = .rfnop ∨ dos = .rfpro) then false else guardAcl dos fromStorage r
  | (_, .objs _) :: r => if !fromStorage ∧ dos = .rfnop then false else guardAcl dos fromStorage r
  | _ :: r => guardAcl dos fromStorage r

/-- security/oc_acl.c:377-432: the second pass. The name of the array of ACEs is
not tested. -/
def applyAcl (fresh : Fresh) (cb : Bool) : Rep → AclState → Out (Bool × AclState)
  | [], st => .ok (true, st)
  | (k, .str s) :: r, st =>
    if k = b "rowneruuid" then
      (Sec.strToUuid st.owner s).bind fun u => applyAcl fresh cb r { st with owner := u }
    else applyAcl fresh cb r st
  | (_, .objs l) :: r, st =>
    (decodeAces fresh cb l st.aces).bind fun x =>
      if x.1 then applyAcl fresh cb r { st with aces := x.2 } else .ok (false, { st with aces := x.2 })
  | _ :: r, st => applyAcl fresh cb r st

/-- security/oc_acl.c:345-433 `oc_sec_decode_acl`. -/
def decodeAcl (fresh : Fresh) (dos : Dos) (fromStorage cb : Bool) (rep : Rep) (st : AclState) : Out (Bool × AclState) :=
  if guardAcl dos fromStorage rep then applyAcl fresh cb rep st else .ok (false, st)

/-- security/oc_acl.c:503-540 `acl_resource_delete`: `query` is the value of the
query parameter aceid as `strtoul` returns it (64 bit), if there is one. Returns
whether the response is "deleted". -/
def deleteAcl (dos : Dos) (query : Option (BitVec 64)) (st : AclState) : Bool × AclState :=
  if dos = .rfnop then (false, st)
  else match query with
    | none => (true, { st with aces := [] })
    | some q =>
      let aceid := Sec.toInt32 q.toNat
      if aceid ≠ 0 then
        let x := removeByAceid aceid st.aces
        (x.1, { st with aces := x.2 })
      else (false, st)

/-- security/oc_acl.c:228-241 `oc_sec_acl_clear` with a filter. -/
def clearAcl (filter : Ace → Bool) (st : AclState) : AclState := { st with aces := st.aces.filter fun a => !filter a }

/-- security/oc_acl.c:278-284 `oc_sec_acl_default`. -/
def defaultAcl : AclState := ⟨[], nilId⟩

/-- The operations on the access control list of a device. `update` is
`oc_sec_acl_update_res` as called with aceid -1 by
`oc_sec_acl_add_created_resource_ace` (:257-276) and `oc_sec_acl_anon_connection`
(:435-450). -/
inductive AclOp where
  | decode (fresh : Fresh) (dos : Dos) (fromStorage cb : Bool) (rep : Rep)
  | update (fresh : Fresh) (s : Subject) (permission : BitVec 16) (tag : Option Bytes) (href : Option Bytes) (wc : Wc)
  | delete (dos : Dos) (query : Option (BitVec 64))
  | clear (filter : Ace → Bool)
  | default

/-- One operation (see the functions called). -/
def AclOp.exec : AclOp → AclState → Out AclState
  | .decode fresh dos fs cb rep, st => (decodeAcl fresh dos fs cb rep st).bind fun x => .ok x.2
  | .update fresh s p t h w, st => (updateRes fresh st.aces s (-1) p t h w).bind fun u => .ok { st with aces := u.aces }
  | .delete dos q, st => .ok (deleteAcl dos q st).2
  | .clear f, st => .ok (clearAcl f st)
  | .default, _ => .ok defaultAcl

/-- A history of operations. -/
def runOps : List AclOp → AclState → Out AclState
  | [], st => .ok st
  | o :: l, st => (o.exec st).bind (runOps l)

end Verif.Acl
