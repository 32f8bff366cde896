import Verif.Cred.History

/-!
C54: in which states the credentials and their owner may be changed; where this
fails; and what is lost by refused requests (C37).
-/

namespace Verif.Cred

open Verif.Rep (Bytes b Val Rep)
open Verif.Acl (Dos Id nilId)
open Verif.Sec (strToUuid toInt32 uuidText)

/-- The payload does not write the owner of the resource. -/
def noOwner (rep : Rep) : Prop := ∀ v, (b "rowneruuid", Val.str v) ∉ rep

/-- The payload has no array of objects. -/
def noObjs (rep : Rep) : Prop := ∀ k v, (k, Val.objs v) ∉ rep

theorem guard_iff (dos : Dos) (rep : Rep) :
    guardOk dos false rep = true ↔
      ((dos = .rfotm ∨ dos = .sreset) ∨ noOwner rep) ∧ ((dos = .rfotm ∨ dos = .sreset ∨ dos = .rfpro) ∨ noObjs rep) := by
  induction rep with
  | nil => simp [guardOk, noOwner, noObjs]
  | cons e l ih =>
    obtain ⟨k, v⟩ := e
    have hcons : ∀ (k : Bytes) (v : Val) (l : Rep), noOwner ((k, v) :: l) ↔
        (∀ s, ¬ (k = b "rowneruuid" ∧ v = .str s)) ∧ noOwner l := by
      intro k v l
      constructor
      · intro h
        exact ⟨fun s e => h s (by rw [e.1, e.2]; exact List.mem_cons_self), fun s m => h s (List.mem_cons_of_mem _ m)⟩
      · rintro ⟨h1, h2⟩ s m
        rcases List.mem_cons.mp m with m | m
        · cases m; exact h1 s ⟨rfl, rfl⟩
        · exact h2 s m
    have hobjs : ∀ (k : Bytes) (v : Val) (l : Rep), noObjs ((k, v) :: l) ↔ (∀ o, v ≠ .objs o) ∧ noObjs l := by
      intro k v l
      constructor
      · intro h
        exact ⟨fun s e => h k s (by rw [e]; exact List.mem_cons_self), fun k s m => h k s (List.mem_cons_of_mem _ m)⟩
      · rintro ⟨h1, h2⟩ k' s m
        rcases List.mem_cons.mp m with m | m
        · cases m; exact h1 s rfl
        · exact h2 k' s m
    rw [hcons, hobjs]
    cases v <;> simp only [guardOk, ih, reduceCtorEq, and_false, not_false_eq_true, implies_true, true_and, ne_eq,
      Bool.and_eq_true, Bool.not_eq_true', Val.str.injEq, Val.objs.injEq]
    case str s =>
      by_cases hk : k = b "rowneruuid"
      · simp only [hk, true_and]
        have : (¬ ∀ s', ¬ s = s') := fun h => h s rfl
        cases dos <;> simp
      · simp [hk]
    case objs o =>
      cases dos <;> simp

/-- Without arrays and without the owner property nothing is changed. -/
theorem decodeProps_none {fs roles w : Bool} {client : Option Nat} {d : Nat} {l : Rep} {os : List (List Orc)} {s : St}
    {ow : Option Nat} (h1 : noOwner l) (h2 : noObjs l) :
    decodeProps fs roles client w d l os s ow = .ok (true, s, ow) := by
  induction l generalizing os s ow with
  | nil => rfl
  | cons e l ih =>
    obtain ⟨k, v⟩ := e
    have h1' : noOwner l := fun v m => h1 v (List.mem_cons_of_mem _ m)
    have h2' : noObjs l := fun k v m => h2 k v (List.mem_cons_of_mem _ m)
    cases v <;> try (rw [decodeProps.eq_def]; exact ih h1' h2')
    case str v =>
      rw [decodeProps, if_neg]
      · exact ih h1' h2'
      · intro e; exact h1 v (by rw [← e]; exact List.mem_cons_self)
    case objs v => exact absurd List.mem_cons_self (h2 k v)

/-- C54 (partial: the owner's resource only; see `roles_post_takes_owner_false` for
the roles resource): in RFNOP and RESET a POST to the credential resource changes
nothing, whatever its payload. -/
theorem post_guarded_partial {dos : Dos} (hd : dos = .rfnop ∨ dos = .reset) {d : Nat} {rep : Rep}
    {os : List (List Orc)} {dv : Bool × Bytes} {s s' : St} (h : step s (.post d dos rep os dv) = .ok s') : s' = s := by
  rw [step, apply, decode] at h
  by_cases hg : guardOk dos false rep = true
  · rw [if_neg (by simp [hg])] at h
    obtain ⟨h1, h2⟩ := (guard_iff dos rep).mp hg
    have h1 : noOwner rep := by
      rcases h1 with h1 | h1
      · rcases hd with e | e <;> rw [e] at h1 <;> rcases h1 with h1 | h1 <;> cases h1
      · exact h1
    have h2 : noObjs rep := by
      rcases h2 with h2 | h2
      · rcases hd with e | e <;> rw [e] at h2 <;> rcases h2 with h2 | h2 | h2 <;> cases h2
      · exact h2
    rw [decodeProps_none h1 h2] at h
    cases h; rfl
  · rw [if_pos ⟨rfl, by simpa using hg⟩] at h
    cases h; rfl

theorem decodeProps_rowner {fs roles w : Bool} {client : Option Nat} {d : Nat} {l : Rep} {os : List (List Orc)} {s : St}
    {ow : Option Nat} {y : Bool × St × Option Nat} (h1 : noOwner l)
    (hy : decodeProps fs roles client w d l os s ow = .ok y) (i : Nat) : (y.2.1.dev i).rowner = (s.dev i).rowner := by
  have hset : ∀ (s : St) (d : Nat) (c : List Cred), ((s.setDev d ⟨c, (s.dev d).rowner⟩).dev i).rowner = (s.dev i).rowner := by
    intro s d c
    rw [setDev_dev]; split
    · rename_i e; rw [e]
    · rfl
  have hadd : ∀ {s : St} {q : Req} {o : Orc} {a : AddRes}, add s d roles client q o true = .ok a →
      (a.st.dev i).rowner = (s.dev i).rowner := by
    intro s q o a ha
    rw [add] at ha
    obtain ⟨r, hr, ha⟩ := bind_ok ha
    split at ha
    · cases ha; rfl
    · split at ha
      · split at ha
        · cases ha
        · obtain ⟨x, hx, ha⟩ := bind_ok ha; cases ha; rfl
      · obtain ⟨x, hx, ha⟩ := bind_ok ha; cases ha; exact hset s d x.creds
  have hfin : ∀ (s : St) (it : Item) (o : Bool) (r : Int) (ow : Option Nat),
      ((finish s d it o w r ow).2.1.dev i).rowner = (s.dev i).rowner := by
    intro s it o r ow
    rw [finish]; split
    · rfl
    · split
      · rfl
      · exact hset s d _
  have hcreds : ∀ {v : List Rep} {os : List Orc} {s : St} {ow : Option Nat} {y : Bool × St × Option Nat},
      decodeCreds fs roles client w d v os s ow = .ok y → (y.2.1.dev i).rowner = (s.dev i).rowner := by
    intro v
    induction v with
    | nil => intro os s ow y hy; rw [decodeCreds] at hy; cases hy; rfl
    | cons r v ih =>
      intro os s ow y hy
      cases os with
      | nil => rw [decodeCreds] at hy; cases hy
      | cons o os =>
        rw [decodeCreds] at hy
        obtain ⟨x, hx, hy⟩ := bind_ok hy
        split at hy
        · cases hy; rfl
        · split at hy
          · cases hy; rfl
          · split at hy
            · exact ih hy
            · obtain ⟨a, ha, hy⟩ := bind_ok hy
              split at hy
              · cases hy; exact hadd ha
              · dsimp only at hy
                split at hy
                · rw [ih hy, hfin, hadd ha]
                · cases hy; rw [hfin, hadd ha]
  fun_induction decodeProps fs roles client w d l os s ow with
  | case1 os s ow => cases hy; rfl
  | case2 os s ow v l ih => exact absurd List.mem_cons_self (h1 _)
  | case3 os s ow k v l hk ih => exact ih (fun v m => h1 v (List.mem_cons_of_mem _ m)) hy
  | case4 os s ow k v l hk ih =>
    obtain ⟨z, hz, hy⟩ := bind_ok hy
    have hz' := hcreds hz
    split at hy
    · rw [ih z (fun v m => h1 v (List.mem_cons_of_mem _ m)) hy]; exact hz'
    · cases hy; exact hz'
  | case5 os s ow k v l hk ih => exact ih (fun v m => h1 v (List.mem_cons_of_mem _ m)) hy
  | case6 os s ow x l h1' h2 ih => exact ih (fun v m => h1 v (List.mem_cons_of_mem _ m)) hy

/-- C54: in RFPRO a POST to the credential resource does not change the owner of
the resource. -/
theorem post_rfpro_owner {d : Nat} {rep : Rep} {os : List (List Orc)} {dv : Bool × Bytes} {s s' : St}
    (h : step s (.post d .rfpro rep os dv) = .ok s') (i : Nat) : (s'.dev i).rowner = (s.dev i).rowner := by
  rw [step] at h
  obtain ⟨y, hy, h⟩ := bind_ok h
  cases h
  rw [apply] at hy
  obtain ⟨z, hz, hy⟩ := bind_ok hy
  rw [if_neg (by simp)] at hy
  have hz' : (z.2.1.dev i).rowner = (s.dev i).rowner := by
    rw [decode] at hz
    by_cases hg : guardOk .rfpro false rep = true
    · rw [if_neg (by simp [hg])] at hz
      have h1 := ((guard_iff .rfpro rep).mp hg).1
      have h1 : noOwner rep := by
        rcases h1 with (h1 | h1) | h1
        · cases h1
        · cases h1
        · exact h1
      exact decodeProps_rowner h1 hz i
    · rw [if_pos ⟨rfl, by simpa using hg⟩] at hz
      cases hz; rfl
  rw [deriveOwner.eq_def] at hy
  split at hy
  · cases hy; exact hz'
  · split at hy
    · cases hy
    · cases hy
      rw [← hz', setDev_dev]
      split
      · rename_i e; rw [e]
      · rfl

/-- C54: in RFNOP credentials cannot be deleted either. -/
theorem delete_guarded {d : Nat} {q : Option Int} {s : St} : delete .rfnop d q s = (false, s) := by
  rw [delete.eq_def, if_pos rfl]

/-- C37: deleting by id removes the credential of that id and no other. -/
theorem delete_exact {dos : Dos} (hd : dos ≠ .rfnop) {d : Nat} {i : Int} {s : St} (hi : Inv s) (h0 : 0 ≤ i)
    (h1 : i ≤ intMax) (j : Int) :
    getById ((delete dos d (some i) s).2.dev d).creds j = (if j = i then none else getById (s.dev d).creds j) ∧
    ((delete dos d (some i) s).1 = true ↔ ∃ c, getById (s.dev d).creds i = some c) := by
  rw [delete.eq_def, if_neg hd]
  dsimp only
  rw [if_neg (by omega)]
  split
  · rename_i hn
    refine ⟨?_, ?_⟩
    · split
      · rename_i e; rw [e]; exact hn
      · rfl
    · simp [hn]
  · rename_i c hc
    refine ⟨?_, by simp [hc]⟩
    show getById (if d = d then ({ s.dev d with creds := eraseId i (s.dev d).creds } : Dev) else s.dev d).creds j = _
    rw [if_pos rfl]
    split
    · rename_i e; rw [e]; exact getById_eraseId (hi.uniq d)
    · rename_i e; exact getById_eraseId_ne e

/-- A payload in RFOTM is accepted: the hypotheses of the theorems above are met
by histories that do something. -/
def orc0 : Orc := ⟨true, true, some [1, 2, 3], true, true, some (b "reader", b "authority"), [4#32, 6#32, 4#32], true⟩

/-- A credential object: a key with the id 7 for the subject `*`. -/
def psk7 : Rep := [(b "credid", .int 7), (b "credtype", .int 1), (b "subjectuuid", .str (b "*")),
  (b "privatedata", .obj [(b "encoding", .str (b "oic.sec.encoding.raw")), (b "data", .bytes (List.replicate 16 65))])]

/-- Another one with the same id. -/
def psk7' : Rep := [(b "credid", .int 7), (b "credtype", .int 1), (b "subjectuuid", .str (b "*")),
  (b "privatedata", .obj [(b "encoding", .str (b "oic.sec.encoding.raw")), (b "data", .bytes (List.replicate 16 66))])]

/-- One without an id. -/
def pskAny : Rep := [(b "credtype", .int 1), (b "subjectuuid", .str (b "*")),
  (b "privatedata", .obj [(b "encoding", .str (b "oic.sec.encoding.raw")), (b "data", .bytes (List.replicate 16 67))])]

/-- One whose key has the wrong length. -/
def psk7bad : Rep := [(b "credid", .int 7), (b "credtype", .int 1), (b "subjectuuid", .str (b "*")),
  (b "privatedata", .obj [(b "encoding", .str (b "oic.sec.encoding.raw")), (b "data", .bytes [68])])]

/-- The ids and private data after a run. -/
def view (d : Nat) : Out St → Option (List (Int × Bytes))
  | .ok s => some ((s.dev d).creds.map fun c => (c.id, c.priv.bytes))
  | .ub => none

/-- The credential of an id is replaced, one without an id gets the first unused
random id (2 is taken, 3 is free), the other device is untouched. -/
example : view 0 (run init [.post 0 .rfotm [(b "creds", .objs [psk7, pskAny, pskAny, psk7'])]
      [[orc0, orc0, orc0, orc0]] (true, [])]) =
    some [(2, List.replicate 16 67), (3, List.replicate 16 67), (7, List.replicate 16 66)] := by decide +kernel

example : view 1 (run init [.post 0 .rfotm [(b "creds", .objs [psk7])] [[orc0]] (true, [])]) = some [] := by decide +kernel

/-- A role certificate asserted by session 5 and one by session 6. -/
def roleObj (id : Int) (cert : Bytes) : Rep := [(b "credid", .int id), (b "credtype", .int 8),
  (b "credusage", .str (b "oic.sec.cred.rolecert")),
  (b "publicdata", .obj [(b "encoding", .str (b "oic.sec.encoding.pem")), (b "data", .str cert)])]

/-- The ids and roles of a session after a run. -/
def viewRoles (p : Nat) : Out St → Option (List (Int × Bytes))
  | .ok s => some ((rolesOf s.clients p).map fun c => (c.id, c.role))
  | .ub => none

example : viewRoles 5 (run init [.postRoles 0 .rfnop (some 5) [(b "roles", .objs [roleObj 1 (b "A"), roleObj 1 (b "B")])] [[orc0, orc0]],
      .postRoles 0 .rfnop (some 6) [(b "roles", .objs [roleObj 1 (b "A")])] [[orc0]], .closeSession 6]) =
    some [(1, b "reader"), (2, b "reader")] := by decide +kernel

example : viewRoles 5 (run init [.postRoles 0 .rfnop (some 5) [(b "roles", .objs [roleObj 1 (b "A")])] [[orc0]],
      .closeSession 5]) = some [] := by decide +kernel

/-- A reserved role is not accepted. -/
example : viewRoles 5 (run init [.postRoles 0 .rfnop (some 5) [(b "roles", .objs [roleObj 1 (b "A")])]
      [[{ orc0 with roleCert := some (b "oic.role.admin", []) }]]]) = some [] := by decide +kernel

/-! ## Where the property fails -/

/-- C37 false: a refused credential (here: a key of a wrong length) removes the
credential that had its id. -/
theorem refused_loses_false :
    view 0 (run init [.post 0 .rfotm [(b "creds", .objs [psk7])] [[orc0]] (true, []),
      .post 0 .rfotm [(b "creds", .objs [psk7bad])] [[orc0]] (true, [])]) = some [] := by decide +kernel

/-- A certificate object. -/
def certObj (id : Int) (usage cert : String) : Rep := [(b "credid", .int id), (b "credtype", .int 8),
  (b "subjectuuid", .str (b "*")), (b "credusage", .str (b usage)),
  (b "publicdata", .obj [(b "encoding", .str (b "oic.sec.encoding.pem")), (b "data", .str (b cert))])]

/-- C37 false: replacing credential 2 by a certificate that is already there as
credential 1 answers with success and id 1, and credential 2 is gone. -/
theorem duplicate_chain_loses_false :
    view 0 (run init [.post 0 .rfotm [(b "creds", .objs
        [certObj 1 "oic.sec.cred.trustca" "A", certObj 2 "oic.sec.cred.trustca" "B",
         certObj 2 "oic.sec.cred.trustca" "A"])] [[orc0, orc0, orc0]] (true, [])]) =
      some [(1, [])] := by decide +kernel

/-- C37 false: a request that is refused because of its second credential has
already stored the first. -/
theorem refused_post_partly_applied_false :
    (∃ s, apply .rfotm false none 0 [(b "creds", .objs [psk7, psk7bad.drop 1])] [[orc0, orc0]] (true, []) init =
      .ok (false, s)) ∧
    view 0 (run init [.post 0 .rfotm [(b "creds", .objs [psk7, psk7bad.drop 1])] [[orc0, orc0]] (true, [])]) =
      some [(7, List.replicate 16 65)] := by
  refine ⟨?_, by decide +kernel⟩
  have h : ((apply .rfotm false none 0 [(b "creds", .objs [psk7, psk7bad.drop 1])] [[orc0, orc0]] (true, []) init).bind
      fun y => .ok y.1) = .ok false := by decide +kernel
  obtain ⟨y, h1, h2⟩ := bind_ok h
  obtain ⟨y1, y2⟩ := y
  cases h2
  exact ⟨y2, h1⟩

/-- The owner's key without private data. -/
def ownerPsk (id : Int) : Rep := [(b "credid", .int id), (b "credtype", .int 1), (b "subjectuuid", .str (b "*"))]

/-- C37 false: if the credential remembered as the owner's is replaced by a later
object of the same payload, freed memory is read. -/
theorem replaced_owner_ub :
    view 0 (run init [.post 0 .rfotm [(b "creds", .objs [ownerPsk 7, psk7])] [[orc0, orc0]] (true, [])]) = none ∧
    view 0 (run init [.post 0 .rfotm [(b "creds", .objs [ownerPsk 7])] [[orc0]] (true, [])]) =
      some [(7, [])] := by
  constructor <;> decide +kernel

/-- C54 false: a request to the **roles** resource with a property `rowneruuid`
changes the owner of the **credential** resource, in every state, for every
session. -/
theorem roles_post_takes_owner_false (dos : Dos) (client : Option Nat) (d : Nat) (u : Id) (hu : u.length = 16)
    (s : St) :
    ∃ s', step s (.postRoles d dos client [(b "rowneruuid", .str (uuidText u))] []) = .ok s' ∧
      (s'.dev d).rowner = u := by
  have h : strToUuid (s.dev d).rowner (uuidText u) = .ok u := Sec.strToUuid_text _ u hu
  refine ⟨s.setDev d { s.dev d with rowner := u }, ?_, ?_⟩
  · rw [step, apply, decode, if_neg (by simp), decodeProps, if_pos rfl, h]
    rfl
  · rw [setDev_dev, if_pos rfl]

/-- C54 false: so every authenticated peer of a device in normal operation can get
access to the credentials. The access control decision lets it POST to the roles
resource; after that it lets it GET, POST and DELETE the credential resource. -/
theorem takeover_false (e : Acl.Env) (roles cred : Acl.Res) (d : Nat) (client : Option Nat) (s : St)
    (hdos : e.dos = .rfnop) (hsec : e.secured = true) (hpki : e.cfg.pki = true) (hdi : e.di.length = 16)
    (hr : roles.uri = b "/oic/sec/roles") (hrd : roles.dcr = true)
    (hc : cred.uri = b "/oic/sec/cred") (hcd : cred.dcr = true) :
    (Acl.checkAcl e roles .post).1 = true ∧
    ∃ s', step s (.postRoles d e.dos client [(b "rowneruuid", .str (uuidText e.di))] []) = .ok s' ∧
      ∀ m, (Acl.checkAcl { e with credOwner := (s'.dev d).rowner } cred m).1 = true := by
  have m1 : Acl.matchUri (b "/oic/sec/roles") roles.uri = true := by rw [hr]; decide +kernel
  have m2 : Acl.matchUri (b "/oic/sec/cred") cred.uri = true := by rw [hc]; decide +kernel
  constructor
  · simp only [Acl.checkAcl, Acl.checkRest, hdos, hsec, hpki, hrd, m1]
    simp [Acl.provisioned]
    repeat' split
    all_goals rfl
  · obtain ⟨s', h1, h2⟩ := roles_post_takes_owner_false e.dos client d e.di hdi s
    refine ⟨s', h1, fun m => ?_⟩
    simp only [Acl.checkAcl, Acl.checkRest, Acl.byUuid, hdos, hsec, hcd, m2, h2]
    simp
    repeat' split
    all_goals rfl

/-- The owner flags of a device. -/
def viewOwner (d : Nat) : Out St → Option (List (Int × Bool))
  | .ok s => some ((s.dev d).creds.map fun c => (c.id, c.owner))
  | .ub => none

/-- C54 false: asserting a role with the id of a credential of the device changes
the owner flag of that credential, in normal operation. -/
theorem role_changes_credential_false :
    viewOwner 0 (run init [.post 0 .rfotm [(b "creds", .objs [psk7])] [[orc0]] (true, []),
      .postRoles 0 .rfnop (some 5) [(b "roles", .objs [(b "owner_cred", .bool true) :: roleObj 7 (b "A")])] [[orc0]]]) =
    some [(7, true)] := by decide +kernel

end Verif.Cred
