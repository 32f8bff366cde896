import Verif.Cred.Props
import Verif.Cred.Roles

/-!
Histories of operations on the credential store and on the roles (C37, C45).
-/

namespace Verif.Cred

open Verif.Rep (Bytes b Val Rep)
open Verif.Acl (Dos Id nilId)
open Verif.Sec (strToUuid toInt32)

/-- What never changes of a credential: everything but the owner flag, the OSCORE
context and the private data (which is derived later for the owner's key). -/
def core (c : Cred) : Cred := { c with owner := false, oscore := false, priv := {} }

/-- The list has lost credentials, and the others have the same core. -/
def Shrinks (l' l : List Cred) : Prop := List.Sublist (l'.map core) (l.map core)

theorem core_id (c : Cred) : (core c).id = c.id := rfl

theorem map_id_core (l : List Cred) : l.map (·.id) = (l.map core).map (·.id) := by
  rw [List.map_map]; rfl

theorem Shrinks.uniq {l l' : List Cred} (h : Uniq l) (s : Shrinks l' l) : Uniq l' := by
  refine ⟨?_, ?_⟩
  · rw [map_id_core]
    exact (s.map (·.id)).nodup (by rw [← map_id_core]; exact h.nodup)
  · intro c hc
    obtain ⟨c', h1, h2⟩ := List.mem_map.mp (s.subset (List.mem_map_of_mem hc))
    rw [← core_id c, ← h2, core_id]
    exact h.valid c' h1

theorem Shrinks.of_sub {l l' : List Cred} (h : List.Sublist l' l) : Shrinks l' l := h.map core

theorem modify_core {i : Int} {f : Cred → Cred} (hf : ∀ c, core (f c) = core c) (l : List Cred) :
    (modify i f l).map core = l.map core := by
  induction l with
  | nil => rfl
  | cons c l ih =>
    rw [modify]; split
    · rw [List.map_cons, List.map_cons, hf]
    · rw [List.map_cons, List.map_cons, ih]

theorem modifyUid_core {u : Nat} {f : Cred → Cred} (hf : ∀ c, core (f c) = core c) (l : List Cred) :
    (modifyUid u f l).map core = l.map core := by
  rw [modifyUid, List.map_map]
  apply List.map_congr_left
  intro c _
  show core (if c.uid = u then f c else c) = core c
  split
  · exact hf c
  · rfl

/-- The newest credential that was created for a device under an id. -/
def newest (log : List (Nat × Cred)) (d : Nat) (i : Int) : Option (Nat × Cred) :=
  log.find? fun e => e.1 == d && e.2.id == i

/-- Invariant of the store. -/
structure Inv (s : St) : Prop where
  uniq : ∀ d, Uniq (s.dev d).creds
  last : ∀ d, ∀ c ∈ (s.dev d).creds, ∃ c0, newest s.log d c.id = some (d, c0) ∧ core c = core c0
  cl : ClInv s.clients

theorem inv_init : Inv init :=
  ⟨fun _ => uniq_nil, fun _ _ h => (by cases h), ⟨List.nodup_nil, fun _ h => (by cases h), fun _ h => (by cases h)⟩⟩

theorem setDev_dev (s : St) (d i : Nat) (x : Dev) : (s.setDev d x).dev i = if i = d then x else s.dev i := rfl

theorem inv_shrink {s : St} (h : Inv s) {d : Nat} {l : List Cred} {r : Id} (hl : Shrinks l (s.dev d).creds) :
    Inv (s.setDev d ⟨l, r⟩) := by
  refine ⟨fun i => ?_, fun i c hc => ?_, h.cl⟩
  · rw [setDev_dev]; split
    · exact hl.uniq (h.uniq d)
    · exact h.uniq i
  · rw [setDev_dev] at hc
    split at hc
    · rename_i e
      subst e
      obtain ⟨c', h1, h2⟩ := List.mem_map.mp (hl.subset (List.mem_map_of_mem hc))
      obtain ⟨c0, h3, h4⟩ := h.last i c' h1
      refine ⟨c0, ?_, h2 ▸ h4⟩
      rw [← core_id c, ← h2, core_id]
      exact h3
    · exact h.last i c hc

theorem inv_rowner {s : St} (h : Inv s) (d : Nat) (r : Id) : Inv (s.setDev d { s.dev d with rowner := r }) :=
  inv_shrink h (List.Sublist.refl _)

/-- Adding a credential keeps the invariant. -/
theorem inv_add {s : St} (h : Inv s) {d : Nat} {roles : Bool} {client : Option Nat} {q : Req} {o : Orc}
    {keep : Bool} {a : AddRes} (ha : add s d roles client q o keep = .ok a) : Inv a.st := by
  rw [add] at ha
  obtain ⟨r, hr, ha⟩ := bind_ok ha
  split at ha
  · cases ha; exact h
  · rename_i u kp
    split at ha
    · rename_i hroles
      split at ha
      · cases ha
      · rename_i peer
        obtain ⟨x, hx, ha⟩ := bind_ok ha
        cases ha
        have ht : q.typ = certType := by
          rw [precheck] at hr
          split at hr
          · cases hr
          · split at hr
            · cases hr
            · rename_i hn
              by_cases e : q.typ = certType
              · exact e
              · exact absurd ⟨hroles, .inl e⟩ hn
        exact ⟨h.uniq, h.last, (addRole_spec h.cl hx ht).1⟩
    · obtain ⟨x, hx, ha⟩ := bind_ok ha
      cases ha
      have hs := addDev_spec (h.uniq d) hx
      cases hc : x.created with
      | false =>
        have := inv_shrink (r := (s.dev d).rowner) h (Shrinks.of_sub (hs.kept hc))
        exact ⟨this.uniq, this.last, this.cl⟩
      | true =>
        obtain ⟨c, l', e, h1, h2, h3, h4, h5⟩ := hs.made hc
        refine ⟨fun i => ?_, fun i c' hc' => ?_, h.cl⟩
        · show Uniq (if i = d then ({ s.dev d with creds := x.creds } : Dev) else s.dev i).creds
          split
          · exact addDev_uniq (h.uniq d) hx
          · exact h.uniq i
        · have hlog : (if true = true then x.creds.getLast?.toList.map (fun c => (d, c)) ++ s.log else s.log) =
              (d, c) :: s.log := by
            rw [if_pos rfl, e, List.getLast?_append]; simp
          show ∃ c0, newest (if true = true then x.creds.getLast?.toList.map (fun c => (d, c)) ++ s.log else s.log) i c'.id = _ ∧ _
          rw [hlog, newest, List.find?_cons]
          have hc' : c' ∈ (if i = d then ({ s.dev d with creds := x.creds } : Dev) else s.dev i).creds := hc'
          by_cases hi : i = d
          · subst hi
            rw [if_pos rfl, e] at hc'
            rcases List.mem_append.mp hc' with hc' | hc'
            · have : c.id ≠ c'.id := fun e => h3 (by rw [e]; exact List.mem_map_of_mem hc')
              rw [beq_false_of_ne this, Bool.and_false]
              exact h.last i c' (h1.subset hc')
            · rw [List.mem_singleton.mp hc']
              exact ⟨c, by simp, rfl⟩
          · rw [if_neg hi] at hc'
            have : d ≠ i := fun e => hi e.symm
            rw [beq_false_of_ne this, Bool.false_and]
            exact h.last i c' hc'

theorem inv_finish {s : St} (h : Inv s) {d : Nat} {it : Item} {osOk w : Bool} {ret : Int} {ow : Option Nat} :
    Inv (finish s d it osOk w ret ow).2.1 := by
  rw [finish]
  split
  · exact h
  · split
    · exact h
    · apply inv_shrink h
      rw [Shrinks, modify_core]
      · exact List.Sublist.refl _
      · intro c; rfl

theorem inv_decodeCreds {fs roles w : Bool} {client : Option Nat} {d : Nat} {l : List Rep} {os : List Orc} {s : St}
    {ow : Option Nat} {y : Bool × St × Option Nat} (h : Inv s)
    (hy : decodeCreds fs roles client w d l os s ow = .ok y) : Inv y.2.1 := by
  induction l generalizing os s ow with
  | nil => rw [decodeCreds] at hy; cases hy; exact h
  | cons r l ih =>
    cases os with
    | nil => rw [decodeCreds] at hy; cases hy
    | cons o os =>
      rw [decodeCreds] at hy
      obtain ⟨x, hx, hy⟩ := bind_ok hy
      split at hy
      · cases hy; exact h
      · split at hy
        · cases hy; exact h
        · split at hy
          · exact ih h hy
          · obtain ⟨a, ha, hy⟩ := bind_ok hy
            split at hy
            · cases hy; exact inv_add h ha
            · dsimp only at hy
              split at hy
              · exact ih (inv_finish (inv_add h ha)) hy
              · cases hy; exact inv_finish (inv_add h ha)

theorem inv_decodeProps {fs roles w : Bool} {client : Option Nat} {d : Nat} {l : Rep} {os : List (List Orc)} {s : St}
    {ow : Option Nat} {y : Bool × St × Option Nat} (h : Inv s)
    (hy : decodeProps fs roles client w d l os s ow = .ok y) : Inv y.2.1 := by
  fun_induction decodeProps fs roles client w d l os s ow with
  | case1 os s ow => cases hy; exact h
  | case2 os s ow v l ih =>
    obtain ⟨u, hu, hy⟩ := bind_ok hy
    exact ih u (inv_rowner h d u) hy
  | case3 os s ow k v l hk ih => exact ih h hy
  | case4 os s ow k v l hk ih =>
    obtain ⟨z, hz, hy⟩ := bind_ok hy
    have hz' := inv_decodeCreds h hz
    split at hy
    · exact ih z hz' hy
    · cases hy; exact hz'
  | case5 os s ow k v l hk ih => exact ih h hy
  | case6 os s ow x l h1 h2 ih => exact ih h hy

theorem inv_decode {dos : Dos} {fs roles w : Bool} {client : Option Nat} {d : Nat} {l : Rep} {os : List (List Orc)}
    {s : St} {y : Bool × St × Option Nat} (h : Inv s)
    (hy : decode dos fs roles client w d l os s = .ok y) : Inv y.2.1 := by
  rw [decode] at hy
  split at hy
  · cases hy; exact h
  · exact inv_decodeProps h hy

theorem inv_derive {s : St} {d : Nat} {ok : Bool} {ow : Option Nat} {dv : Bool × Bytes} {y : Bool × St} (h : Inv s)
    (hy : deriveOwner s d ok ow dv = .ok y) : Inv y.2 := by
  rw [deriveOwner.eq_def] at hy
  split at hy
  · cases hy; exact h
  · split at hy
    · cases hy
    · cases hy
      apply inv_shrink h
      have hm : ∀ (u : Nat) (x : Data), (modifyUid u (fun c => { c with priv := x }) (s.dev d).creds).map core =
          (s.dev d).creds.map core := by
        intro u x
        apply modifyUid_core
        intro c; rfl
      have hc : ∀ (u : Nat) (x : Data) (dd : Bool), List.Sublist
          ((if dd then modifyUid u (fun c => { c with priv := x }) (s.dev d).creds else (s.dev d).creds).map core)
          ((s.dev d).creds.map core) := by
        intro u x dd
        cases dd
        · exact List.Sublist.refl _
        · rw [if_pos rfl, hm]; exact List.Sublist.refl _
      have he : ∀ (l : List Cred) (i : Int) (x : Bool), List.Sublist (l.map core) ((s.dev d).creds.map core) →
          Shrinks (if x then l else eraseId i l) (s.dev d).creds := by
        intro l i x hl
        cases x
        · exact List.Sublist.trans ((eraseId_sub _ _).map core) hl
        · exact hl
      exact he _ _ _ (hc _ _ _)

theorem inv_apply {dos : Dos} {roles : Bool} {client : Option Nat} {d : Nat} {l : Rep} {os : List (List Orc)}
    {dv : Bool × Bytes} {s : St} {y : Bool × St} (h : Inv s) (hy : apply dos roles client d l os dv s = .ok y) :
    Inv y.2 := by
  rw [apply] at hy
  obtain ⟨z, hz, hy⟩ := bind_ok hy
  split at hy
  · cases hy; exact inv_decode h hz
  · exact inv_derive (inv_decode h hz) hy

theorem inv_clients {s : St} (h : Inv s) {cl : List Client} (hc : ClInv cl) : Inv { s with clients := cl } :=
  ⟨h.uniq, h.last, hc⟩

theorem clInv_freeRoleById {cl : List Client} (h : ClInv cl) (i : Int) (p : Nat) :
    ClInv (freeRoleById i p cl).2 := by
  rw [freeRoleById]
  split
  · exact h
  · rename_i c hc
    split
    · exact h
    · exact clInv_setRoles h ((h.uniq c (clientOf_mem hc).1).sub (eraseId_sub _ _))
        fun x hx => h.ok c (clientOf_mem hc).1 x ((eraseId_sub _ _).subset hx)

theorem inv_step {s s' : St} {op : Op} (h : Inv s) (hs : step s op = .ok s') : Inv s' := by
  cases op <;> rw [step] at hs
  case add d q o => obtain ⟨a, ha, hs⟩ := bind_ok hs; cases hs; exact inv_add h ha
  case post d dos rep os dv => obtain ⟨a, ha, hs⟩ := bind_ok hs; cases hs; exact inv_apply h ha
  case postRoles d dos cl rep os => obtain ⟨a, ha, hs⟩ := bind_ok hs; cases hs; exact inv_apply h ha
  case delete d dos q =>
    cases hs
    rw [delete.eq_def]
    split
    · exact h
    · split
      · exact inv_shrink h (Shrinks.of_sub (clear_sub _ _))
      · split
        · exact h
        · split
          · exact h
          · exact inv_shrink h (Shrinks.of_sub (eraseId_sub _ _))
  case deleteRole c q =>
    cases hs
    rw [deleteRole.eq_def]
    split
    · exact h
    · split
      · exact inv_clients h (h.cl.sub (freeRoles_sub _ _))
      · split
        · exact h
        · exact inv_clients h (clInv_freeRoleById h.cl _ _)
  case remove d i => cases hs; exact inv_shrink h (Shrinks.of_sub (eraseId_sub _ _))
  case removeSubject d u => cases hs; exact inv_shrink h (Shrinks.of_sub (eraseSubject_sub _ _))
  case clear d f => cases hs; exact inv_shrink h (Shrinks.of_sub (clear_sub _ _))
  case default d => cases hs; exact inv_shrink h (Shrinks.of_sub (clear_sub _ _))
  case load d dos rep os => obtain ⟨a, ha, hs⟩ := bind_ok hs; cases hs; exact inv_decode h ha
  case closeSession p => cases hs; exact inv_clients h (h.cl.sub (freeRoles_sub _ _))
  case freeRolesDevice d => cases hs; exact inv_clients h (h.cl.sub (freeForDevice_sub _ _ _))

theorem inv_run {s s' : St} {ops : List Op} (h : Inv s) (hr : run s ops = .ok s') : Inv s' := by
  induction ops generalizing s with
  | nil => cases hr; exact h
  | cons op ops ih =>
    rw [run] at hr
    obtain ⟨s1, h1, hr⟩ := bind_ok hr
    exact ih (inv_step h h1) hr

/-! ## C37 -/

/-- C37: after every history of additions, updates, deletions, resets and loads no
two credentials of a device have the same id, and none has the invalid id −1. -/
theorem ids_unique {ops : List Op} {s : St} (h : run init ops = .ok s) (d : Nat) :
    ((s.dev d).creds.map (·.id)).Nodup ∧ ∀ c ∈ (s.dev d).creds, c.id ≠ -1 :=
  let u := (inv_run inv_init h).uniq d
  ⟨u.nodup, u.valid⟩

/-- C37: after every history, what the lookup by id returns is the credential that
was created last for that device under that id (all but the owner flag, the
OSCORE context and the private data, which may be set later). -/
theorem lookup_newest {ops : List Op} {s : St} (h : run init ops = .ok s) {d : Nat} {i : Int} {c : Cred}
    (hc : getById (s.dev d).creds i = some c) :
    ∃ c0, newest s.log d i = some (d, c0) ∧ core c = core c0 := by
  obtain ⟨h1, h2⟩ := getById_mem hc
  rw [← h2]
  exact (inv_run inv_init h).last d c h1

/-- C37: the credentials created are recorded: one that `add` creates is the newest
of its id (this ties `newest` to the requests, see `addDev_lookup` for its
contents). -/
theorem newest_created {s : St} (hi : Inv s) {d : Nat} {q : Req} {o : Orc} {keep : Bool} {a : AddRes}
    (h : add s d false none q o keep = .ok a) (hc : a.created = true) :
    ∃ c u kp, newest a.st.log d a.ret = some (d, c) ∧ getById (a.st.dev d).creds a.ret = some c ∧
      setSubject q.subject q.usage = .ok (some u) ∧ Made q o false u kp s.next c := by
  rw [add] at h
  obtain ⟨r, hr, h⟩ := bind_ok h
  split at h
  · cases h; cases hc
  · rename_i u kp
    rw [if_neg (by simp)] at h
    obtain ⟨x, hx, h⟩ := bind_ok h
    cases h
    have hc : x.created = true := hc
    obtain ⟨c, l', e, h1, h2, h3, h4, h5⟩ := (addDev_spec (hi.uniq d) hx).made hc
    refine ⟨c, u, kp, ?_, ?_, ?_, h5⟩
    · show newest (if x.created = true then x.creds.getLast?.toList.map (fun c => (d, c)) ++ s.log else s.log) d x.ret = _
      rw [if_pos hc, e, List.getLast?_append, h2]
      simp [newest]
    · show getById (if d = d then ({ s.dev d with creds := x.creds } : Dev) else s.dev d).creds x.ret = _
      rw [if_pos rfl, getById_iff (addDev_uniq (hi.uniq d) hx), e, h2]
      exact ⟨by simp, rfl⟩
    · rw [precheck] at hr
      split at hr
      · cases hr
      · split at hr
        · cases hr
        · obtain ⟨v, hv, hr⟩ := bind_ok hr
          rw [hv]
          split at hr
          · cases hr
          · split at hr
            · split at hr
              · cases hr
              · cases hr; rfl
            · cases hr; rfl

/-! ## C45 -/

/-- C45: after every history each session has one set of roles, whose credentials
have different ids; every role in it was asserted with a certificate, and is not
one of the reserved roles `oic.role.…` other than `oic.role.owner`. -/
theorem roles_wellformed {ops : List Op} {s : St} (h : run init ops = .ok s) (p : Nat) :
    ((rolesOf s.clients p).map (·.id)).Nodup ∧
    ∀ c ∈ rolesOf s.clients p, c.typ = certType ∧ roleAllowed c.role = true :=
  let u := rolesOf_uniq (inv_run inv_init h).cl p
  ⟨u.1.nodup, fun c hc => ⟨(u.2 c hc).cert, (u.2 c hc).allowed⟩⟩

/-- The operations that are allowed to change the roles of session `p`: requests
of `p`, the end of `p`, and a reset of the device `p` is connected to. -/
def Concerns (s : St) (p : Nat) : Op → Prop
  | .postRoles _ _ client _ _ => client = some p
  | .deleteRole client _ => client = some p
  | .closeSession q => q = p
  | .freeRolesDevice d => ∃ c ∈ s.clients, c.peer = p ∧ c.device = d
  | _ => False

theorem add_clients {s : St} {d : Nat} {roles : Bool} {client : Option Nat} {q : Req} {o : Orc} {keep : Bool}
    {a : AddRes} (hi : Inv s) (h : add s d roles client q o keep = .ok a) (p : Nat)
    (hp : roles = true → client ≠ some p) : rolesOf a.st.clients p = rolesOf s.clients p := by
  rw [add] at h
  obtain ⟨r, hr, h⟩ := bind_ok h
  split at h
  · cases h; rfl
  · split at h
    · rename_i hroles
      split at h
      · cases h
      · rename_i peer
        obtain ⟨x, hx, h⟩ := bind_ok h
        cases h
        have ht : q.typ = certType := by
          rw [precheck] at hr
          split at hr
          · cases hr
          · split at hr
            · cases hr
            · rename_i hn
              by_cases e : q.typ = certType
              · exact e
              · exact absurd ⟨hroles, .inl e⟩ hn
        exact (addRole_spec hi.cl hx ht).2.1 p fun e => hp hroles (by rw [e])
    · obtain ⟨x, hx, h⟩ := bind_ok h
      cases h; rfl

theorem finish_clients (s : St) (d : Nat) (it : Item) (osOk w : Bool) (ret : Int) (ow : Option Nat) :
    (finish s d it osOk w ret ow).2.1.clients = s.clients := by
  rw [finish]; split
  · rfl
  · split <;> rfl

theorem decodeCreds_clients {fs roles w : Bool} {client : Option Nat} {d : Nat} {l : List Rep} {os : List Orc} {s : St}
    {ow : Option Nat} {y : Bool × St × Option Nat} (h : Inv s)
    (hy : decodeCreds fs roles client w d l os s ow = .ok y) (p : Nat) (hp : roles = true → client ≠ some p) :
    rolesOf y.2.1.clients p = rolesOf s.clients p := by
  induction l generalizing os s ow with
  | nil => rw [decodeCreds] at hy; cases hy; rfl
  | cons r l ih =>
    cases os with
    | nil => rw [decodeCreds] at hy; cases hy
    | cons o os =>
      rw [decodeCreds] at hy
      obtain ⟨x, hx, hy⟩ := bind_ok hy
      split at hy
      · cases hy; rfl
      · split at hy
        · cases hy; rfl
        · split at hy
          · exact ih h hy
          · obtain ⟨a, ha, hy⟩ := bind_ok hy
            split at hy
            · cases hy; exact add_clients h ha p hp
            · dsimp only at hy
              split at hy
              · rw [ih (inv_finish (inv_add h ha)) hy, finish_clients]; exact add_clients h ha p hp
              · cases hy
                rw [finish_clients]; exact add_clients h ha p hp

theorem decodeProps_clients {fs roles w : Bool} {client : Option Nat} {d : Nat} {l : Rep} {os : List (List Orc)} {s : St}
    {ow : Option Nat} {y : Bool × St × Option Nat} (h : Inv s)
    (hy : decodeProps fs roles client w d l os s ow = .ok y) (p : Nat) (hp : roles = true → client ≠ some p) :
    rolesOf y.2.1.clients p = rolesOf s.clients p := by
  fun_induction decodeProps fs roles client w d l os s ow with
  | case1 os s ow => cases hy; rfl
  | case2 os s ow v l ih =>
    obtain ⟨u, hu, hy⟩ := bind_ok hy
    exact ih u (inv_rowner h d u) hy
  | case3 os s ow k v l hk ih => exact ih h hy
  | case4 os s ow k v l hk ih =>
    obtain ⟨z, hz, hy⟩ := bind_ok hy
    have hz' := decodeCreds_clients h hz p hp
    split at hy
    · rw [ih z (inv_decodeCreds h hz) hy]; exact hz'
    · cases hy; exact hz'
  | case5 os s ow k v l hk ih => exact ih h hy
  | case6 os s ow x l h1 h2 ih => exact ih h hy

theorem apply_clients {dos : Dos} {roles : Bool} {client : Option Nat} {d : Nat} {l : Rep} {os : List (List Orc)}
    {dv : Bool × Bytes} {s : St} {y : Bool × St} (h : Inv s) (hy : apply dos roles client d l os dv s = .ok y)
    (p : Nat) (hp : roles = true → client ≠ some p) : rolesOf y.2.clients p = rolesOf s.clients p := by
  rw [apply] at hy
  obtain ⟨z, hz, hy⟩ := bind_ok hy
  have hz' : rolesOf z.2.1.clients p = rolesOf s.clients p := by
    rw [decode] at hz
    split at hz
    · cases hz; rfl
    · exact decodeProps_clients h hz p hp
  split at hy
  · cases hy; exact hz'
  · rw [deriveOwner.eq_def] at hy
    split at hy
    · cases hy; exact hz'
    · split at hy
      · cases hy
      · cases hy; exact hz'

theorem rolesOf_freeRoleById {cl : List Client} {i : Int} {p q : Nat} (h : q ≠ p) :
    rolesOf (freeRoleById i p cl).2 q = rolesOf cl q := by
  rw [freeRoleById]
  split
  · rfl
  · split
    · rfl
    · rw [rolesOf_eq, rolesOf_eq, clientOf_setRoles, if_neg h]

/-- C45: whatever other sessions do — assert roles, delete them, end — and
whatever happens to the credentials of the devices, the roles of session `p` stay
what they are. -/
theorem roles_confined {s s' : St} {op : Op} (hi : Inv s) (h : step s op = .ok s') (p : Nat)
    (hp : ¬ Concerns s p op) : rolesOf s'.clients p = rolesOf s.clients p := by
  cases op <;> rw [step] at h
  case add d q o => obtain ⟨a, ha, h⟩ := bind_ok h; cases h; exact add_clients hi ha p (fun e => (by cases e))
  case post d dos rep os dv => obtain ⟨a, ha, h⟩ := bind_ok h; cases h; exact apply_clients hi ha p (fun e => (by cases e))
  case postRoles d dos cl rep os => obtain ⟨a, ha, h⟩ := bind_ok h; cases h; exact apply_clients hi ha p (fun _ => hp)
  case delete d dos q =>
    cases h
    rw [delete.eq_def]
    split
    · rfl
    · split
      · rfl
      · split
        · rfl
        · split <;> rfl
  case deleteRole c q =>
    cases h
    rw [deleteRole.eq_def]
    split
    · rfl
    · rename_i x
      have hx : p ≠ x := fun e => hp (by rw [e]; rfl)
      split
      · rw [rolesOf_eq, rolesOf_eq]; show ((clientOf (freeRoles x s.clients) p).map _).getD _ = _
        rw [clientOf_freeRoles_ne hx]
      · split
        · rfl
        · exact rolesOf_freeRoleById hx
  case remove d i => cases h; rfl
  case removeSubject d u => cases h; rfl
  case clear d f => cases h; rfl
  case default d => cases h; rfl
  case load d dos rep os =>
    obtain ⟨a, ha, h⟩ := bind_ok h
    cases h
    rw [decode] at ha
    split at ha
    · cases ha; rfl
    · exact decodeProps_clients hi ha p (fun e => (by cases e))
  case closeSession x =>
    cases h
    have hx : p ≠ x := fun e => hp (by rw [e]; rfl)
    rw [rolesOf_eq, rolesOf_eq]; show ((clientOf (freeRoles x s.clients) p).map _).getD _ = _
    rw [clientOf_freeRoles_ne hx]
  case freeRolesDevice d =>
    cases h
    rw [rolesOf_eq, rolesOf_eq]
    show ((clientOf (freeForDevice d s.clients s.clients) p).map _).getD _ = _
    rw [clientOf_freeForDevice hi.cl, if_neg (show ¬ ∃ c ∈ s.clients, c.peer = p ∧ c.device = d from hp)]

/-- C45: the end of a session removes all its roles; so does deleting them without
a query. -/
theorem close_removes {s s' : St} (hi : Inv s) (p : Nat) (h : step s (.closeSession p) = .ok s') :
    rolesOf s'.clients p = [] := by
  rw [step] at h
  cases h
  rw [rolesOf_eq]; show ((clientOf (freeRoles p s.clients) p).map _).getD _ = _
  rw [clientOf_freeRoles hi.cl]; rfl

/-- C45: a reset of a device removes the roles of all sessions with it. -/
theorem reset_removes {s s' : St} (hi : Inv s) (d p : Nat) (h : step s (.freeRolesDevice d) = .ok s')
    (hp : ∃ c ∈ s.clients, c.peer = p ∧ c.device = d) : rolesOf s'.clients p = [] := by
  rw [step] at h
  cases h
  rw [rolesOf_eq]; show ((clientOf (freeForDevice d s.clients s.clients) p).map _).getD _ = _
  rw [clientOf_freeForDevice hi.cl, if_pos hp]; rfl

/-- No request to the roles resource in the history comes from session `p`. -/
def NoPost (p : Nat) : List Op → Prop
  | [] => True
  | .postRoles _ _ client _ _ :: l => client ≠ some p ∧ NoPost p l
  | _ :: l => NoPost p l

theorem roles_stay_empty {s s' : St} {ops : List Op} (hi : Inv s) {p : Nat} (he : rolesOf s.clients p = [])
    (hn : NoPost p ops) (h : run s ops = .ok s') : rolesOf s'.clients p = [] := by
  induction ops generalizing s with
  | nil => cases h; exact he
  | cons op ops ih =>
    rw [run] at h
    obtain ⟨s1, h1, h⟩ := bind_ok h
    have hi1 := inv_step hi h1
    have hrest : NoPost p ops := by cases op <;> first | exact hn.2 | exact hn
    refine ih hi1 ?_ hrest h
    by_cases hc : Concerns s p op
    · cases op <;> try exact absurd hc (fun h => h)
      case postRoles d dos cl rep os => exact absurd hc hn.1
      case deleteRole c q =>
        rw [step] at h1
        cases h1
        have hc : c = some p := hc
        subst hc
        rw [deleteRole.eq_def]
        split
        · rename_i e; cases e
        · rename_i x e
          cases e
          split
          · rw [rolesOf_eq]; show ((clientOf (freeRoles p s.clients) p).map _).getD _ = _
            rw [clientOf_freeRoles hi.cl]; rfl
          · split
            · exact he
            · show rolesOf (freeRoleById _ p s.clients).2 p = []
              rw [freeRoleById]
              split
              · exact he
              · rename_i c hc
                have : c.roles = [] := by rw [rolesOf, hc] at he; exact he
                rw [this]
                exact he
      case closeSession x => rw [show x = p from hc] at h1; exact close_removes hi p h1
      case freeRolesDevice d => exact reset_removes hi d p h1 hc
    · rw [roles_confined hi h1 p hc]; exact he

/-- C45: after every history, a session that ended and has not asserted a role
since (in particular: a new session at the same address) has no role. -/
theorem closed_session_no_roles {h1 h2 : List Op} {p : Nat} {s : St}
    (h : run init (h1 ++ .closeSession p :: h2) = .ok s) (hn : NoPost p h2) : rolesOf s.clients p = [] := by
  have split : ∀ (a : List Op) (b : List Op) (s0 s1 : St), run s0 (a ++ b) = .ok s1 →
      ∃ m, run s0 a = .ok m ∧ run m b = .ok s1 := by
    intro a
    induction a with
    | nil => intro b s0 s1 h; exact ⟨s0, rfl, h⟩
    | cons o a ih =>
      intro b s0 s1 h
      rw [List.cons_append, run] at h
      obtain ⟨m, hm, h⟩ := bind_ok h
      obtain ⟨m', h1, h2⟩ := ih b m s1 h
      exact ⟨m', by rw [run, hm]; exact h1, h2⟩
  obtain ⟨m, hm, h⟩ := split _ _ _ _ h
  have hi := inv_run inv_init hm
  rw [run] at h
  obtain ⟨m', hm', h⟩ := bind_ok h
  exact roles_stay_empty (inv_step hi hm') (close_removes hi p hm') hn h

/-- C45: a role that a session gains is the role of a certificate that the session
presented and whose chain, key and subject were verified. -/
theorem role_verified {s : St} {d p : Nat} {q : Req} {o : Orc} {keep : Bool} {a : AddRes} (hi : Inv s)
    (h : add s d true (some p) q o keep = .ok a) (hc : a.created = true) :
    o.pkOk = true ∧ o.roleOk = true ∧ q.typ = certType ∧ q.usage = roleCertUse ∧
    ∃ c, rolesOf a.st.clients p = rolesOf s.clients p ++ [c] ∧ o.roleCert = some (c.role, c.authority) := by
  rw [add] at h
  obtain ⟨r, hr, h⟩ := bind_ok h
  split at h
  · cases h; cases hc
  · rename_i u kp
    rw [if_pos rfl] at h
    obtain ⟨x, hx, h⟩ := bind_ok h
    cases h
    have hp : o.pkOk = true ∧ o.roleOk = true ∧ q.typ = certType ∧ q.usage = roleCertUse := by
      rw [precheck] at hr
      split at hr
      · cases hr
      · rename_i h1
        split at hr
        · cases hr
        · rename_i h2
          have h3 : q.typ = certType := by
            by_cases e : q.typ = certType
            · exact e
            · exact absurd ⟨rfl, .inl e⟩ h2
          refine ⟨?_, ?_, h3, ?_⟩
          · cases e : o.pkOk
            · exact absurd ⟨h3, by rw [e]; rfl⟩ h1
            · rfl
          · cases e : o.roleOk
            · exact absurd ⟨rfl, .inr (.inr (.inr (by rw [e]; rfl)))⟩ h2
            · rfl
          · by_cases e : q.usage = roleCertUse
            · exact e
            · exact absurd ⟨rfl, .inr (.inl e)⟩ h2
    obtain ⟨c, h1, h2, h3, h4, _⟩ := (addRole_spec hi.cl hx hp.2.2.1).2.2.2.1 hc
    exact ⟨hp.1, hp.2.1, hp.2.2.1, hp.2.2.2, c, h1, h4⟩

end Verif.Cred
