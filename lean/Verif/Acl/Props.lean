import Verif.Acl.Lemmas

/-! C27 and C28: the access decision. Resource URIs start with a slash
(`oc_store_uri`, api/oc_ri.c, and the constants of the core resources). -/

namespace Verif.Acl

open Verif.Rep (Bytes b)

/-! ## Kinds of resources -/

/-- In every build the security resources of a device are device configuration
resources and no vertical resources. -/
theorem svr_is_dcr (y : Layout) (n dev : Nat) (i : Option Nat) (h1 : y.con < y.doxm)
    (h3 : ∀ a c, y.intro = some (a, c) → a < y.doxm ∧ c < y.doxm) (h : coreIsSVR y n dev i = true) :
    coreIsDCR y n dev i = true ∧ coreIsVertical y n dev i = (decide (∃ k, i = some k ∧ k < y.con)) := by
  cases i with
  | none => cases h
  | some i =>
    simp only [coreIsSVR, Bool.and_eq_true, decide_eq_true_eq] at h
    obtain ⟨⟨hd, hlo⟩, hhi⟩ := h
    have hnc : ¬ i < y.con := by omega
    have hin : y.base dev + y.con ≤ i ∧ i ≤ y.base dev + y.d := by omega
    constructor
    · rw [coreIsDCR, if_neg hnc, if_neg (by omega), if_pos hin]
      have hi : (match y.intro with
          | some (wk, data) => decide (i = y.base dev + wk) || decide (i = y.base dev + data)
          | none => false) = false := by
        cases hx : y.intro with
        | none => rfl
        | some w =>
          obtain ⟨a, c⟩ := w
          have := h3 a c hx
          have e1 : ¬ i = y.base dev + a := by omega
          have e2 : ¬ i = y.base dev + c := by omega
          simp [e1, e2]
      have : i ≠ y.base dev + y.con := by omega
      refine (if_neg (by rw [Bool.not_eq_true]; exact hi)).trans ?_
      simp [this]
    · rw [coreIsVertical, if_neg hnc, if_neg (by omega)]
      simp [hin, hnc]

/-- Resources that are not in the table of core resources are neither. -/
theorem app_resource_kind (y : Layout) (n dev : Nat) (h : dev < n) :
    coreIsSVR y n dev none = false ∧ coreIsDCR y n dev none = false ∧ coreIsVertical y n dev none = true := by
  simp [coreIsSVR, coreIsDCR, coreIsVertical, h]

/-! ## C27 -/

theorem byUuid_iff (e : Env) (r : Res) (hu : r.uri.head? = some 47) : byUuid e r = true ↔ Spec.Owner e r := by
  simp only [byUuid, matchUri_slash _ _ hu, Bool.or_eq_true, Bool.and_eq_true, decide_eq_true_eq, Spec.Owner, or_assoc]

theorem onGet_iff (e : Env) (r : Res) (hu : r.uri.head? = some 47) : onGet e r = true ↔ Spec.OpenToRead e r := by
  simp only [onGet, matchUri_slash _ _ hu, Bool.or_eq_true, Bool.and_eq_true, decide_eq_true_eq, Spec.OpenToRead, or_assoc]

theorem provisioned_iff (d : Dos) : provisioned d = true ↔ Spec.Provisioned d := by
  simp only [provisioned, decide_eq_true_eq, Spec.Provisioned]

theorem ite_fst {α β : Type} (c : Prop) [Decidable c] (x y : α × β) : (if c then x else y).1 = if c then x.1 else y.1 := by
  split <;> rfl

theorem checkRest_iff (e : Env) (r : Res) (m : Method) (hu : r.uri.head? = some 47) :
    (checkRest e r m).1 = true ↔
      ((r.dcr = true ∧ ∃ p, e.peer = some p ∧ p.doc = true) ∨
      (m = .get ∧ Spec.OpenToRead e r) ∨
      (e.dos = .rfotm ∧ e.numPeers = 0 ∧ (r.uri = b "/oic/sec/doxm" ∨ (m = .get ∧ r.uri = b "/oic/sec/pstat"))) ∨
      (¬ (e.dos = .rfotm ∧ e.numPeers = 0) ∧
        ¬ (r.svr = true ∧ e.secured = false ∧ Spec.Provisioned e.dos) ∧
        (Spec.Owner e r ∨ (e.cfg.pki = true ∧ r.uri = b "/oic/sec/roles" ∧ Spec.Provisioned e.dos) ∨
          Spec.ByPermissions e r m))) := by
  have hdoc : ((r.dcr && (match e.peer with | some p => p.doc | none => false)) = true) ↔
      (r.dcr = true ∧ ∃ p, e.peer = some p ∧ p.doc = true) := by
    cases e.peer <;> simp
  rw [checkRest]
  simp only [ite_fst]
  by_cases h1 : r.dcr = true ∧ ∃ p, e.peer = some p ∧ p.doc = true
  · constructor
    · intro _; exact .inl h1
    · intro _; exact if_pos (hdoc.2 h1)
  refine Iff.trans (Eq.to_iff (congrArg (· = true) (if_neg (fun h => h1 (hdoc.1 h))))) ?_
  by_cases h2 : m = .get ∧ Spec.OpenToRead e r
  · rw [if_pos (by simp only [Bool.and_eq_true, decide_eq_true_eq, onGet_iff e r hu]; exact h2)]
    simp only [true_iff]; exact .inr (.inl h2)
  rw [if_neg (by simp only [Bool.and_eq_true, decide_eq_true_eq, onGet_iff e r hu]; exact h2)]
  by_cases h3 : e.dos = .rfotm ∧ e.numPeers = 0
  · rw [if_pos (by simp [h3.1, h3.2])]
    simp only [priorToDoc, matchUri_slash _ _ hu, Bool.or_eq_true, Bool.and_eq_true, decide_eq_true_eq]
    constructor
    · intro h; exact .inr (.inr (.inl ⟨h3.1, h3.2, h⟩))
    · rintro (h | h | ⟨-, -, h⟩ | ⟨h, -⟩)
      · exact absurd h h1
      · exact absurd h h2
      · exact h
      · exact absurd h3 h
  rw [if_neg (by simpa using h3)]
  have key : ((if (r.svr && !e.secured && provisioned e.dos) = true then false
      else if byUuid e r = true then true
      else if (e.cfg.pki && matchUri (b "/oic/sec/roles") r.uri && provisioned e.dos) = true then true
      else (byPermissions e r m).1) = true) ↔
      (¬ (r.svr = true ∧ e.secured = false ∧ Spec.Provisioned e.dos) ∧
        (Spec.Owner e r ∨ (e.cfg.pki = true ∧ r.uri = b "/oic/sec/roles" ∧ Spec.Provisioned e.dos) ∨
          Spec.ByPermissions e r m)) := by
    have hs : (r.svr && !e.secured && provisioned e.dos) = true ↔
        (r.svr = true ∧ e.secured = false ∧ Spec.Provisioned e.dos) := by
      simp only [Bool.and_eq_true, provisioned_iff, Bool.not_eq_true', and_assoc]
    have hr : (e.cfg.pki && matchUri (b "/oic/sec/roles") r.uri && provisioned e.dos) = true ↔
        (e.cfg.pki = true ∧ r.uri = b "/oic/sec/roles" ∧ Spec.Provisioned e.dos) := by
      simp only [Bool.and_eq_true, provisioned_iff, matchUri_slash _ _ hu, decide_eq_true_eq, and_assoc]
    by_cases h4 : r.svr = true ∧ e.secured = false ∧ Spec.Provisioned e.dos
    · rw [if_pos (hs.2 h4)]; simp [h4]
    rw [if_neg (fun h => h4 (hs.1 h))]
    by_cases h5 : Spec.Owner e r
    · rw [if_pos ((byUuid_iff e r hu).2 h5)]
      simp only [h4, h5, not_false_eq_true, true_or, and_self]
    rw [if_neg (fun h => h5 ((byUuid_iff e r hu).1 h))]
    by_cases h6 : e.cfg.pki = true ∧ r.uri = b "/oic/sec/roles" ∧ Spec.Provisioned e.dos
    · rw [if_pos (hr.2 h6)]
      simp only [true_iff]
      exact ⟨h4, .inr (.inl h6)⟩
    rw [if_neg (fun h => h6 (hr.1 h)), byPermissions_iff e r m hu]
    constructor
    · intro h; exact ⟨h4, .inr (.inr h)⟩
    · rintro ⟨-, h | h | h⟩
      · exact absurd h h5
      · exact absurd h h6
      · exact h
  rw [key]
  constructor
  · rintro ⟨h, h'⟩; exact .inr (.inr (.inr ⟨h3, h, h'⟩))
  · rintro (h | h | ⟨h, h', -⟩ | ⟨-, h, h'⟩)
    · exact absurd h h1
    · exact absurd h h2
    · exact absurd ⟨h, h'⟩ h3
    · exact ⟨h, h'⟩

/-- C27. A request is allowed exactly if the rules allow it, for every state,
requester, credential list, access control list, resource and method. -/
theorem check_spec (e : Env) (r : Res) (m : Method) (hu : r.uri.head? = some 47) :
    (checkAcl e r m).1 = true ↔ Spec.Allowed e r m := by
  rw [checkAcl, Spec.Allowed]
  simp only [ite_fst]
  by_cases h1 : e.dos = .rfotm ∧ e.secured = false ∧ e.numPeers = 1
  · rw [if_pos (by simp [h1.1, h1.2.1, h1.2.2])]
    constructor
    · intro h; cases h
    · rintro (⟨-, -, h, -⟩ | ⟨h, -⟩)
      · exact absurd h1.2.2 h
      · exact absurd h1 h
  rw [if_neg (by intro h; simp only [Bool.and_eq_true, decide_eq_true_eq, Bool.not_eq_true'] at h; exact h1 ⟨h.1.1, h.1.2, h.2⟩)]
  by_cases h2 : e.dos = .rfotm ∧ e.secured = false ∧ e.numPeers ≠ 1 ∧ e.cfg.rfotmAccess = true ∧ r.accessInRfotm = true ∧
      Spec.Permits m r.anonPerm
  · rw [if_pos (by
      simp only [Bool.and_eq_true, decide_eq_true_eq, Bool.not_eq_true', evalAccess_iff]
      exact ⟨⟨⟨⟨h2.1, h2.2.1⟩, h2.2.2.2.1⟩, h2.2.2.2.2.1⟩, h2.2.2.2.2.2⟩)]
    simp only [true_iff]; exact .inl h2
  rw [if_neg (by
    intro h; simp only [Bool.and_eq_true, decide_eq_true_eq, Bool.not_eq_true', evalAccess_iff] at h
    exact h2 ⟨h.1.1.1.1, h.1.1.1.2, fun hn => h1 ⟨h.1.1.1.1, h.1.1.1.2, hn⟩, h.1.1.2, h.1.2, h.2⟩)]
  have hrest := checkRest_iff e r m hu
  by_cases h3 : r.dcr = true ∨ (e.dos = .rfnop ∧ (r.vertical = true → e.secured = true))
  · have h4 : ¬ ((!r.dcr && decide (e.dos ≠ .rfnop)) = true) := by
      rcases h3 with h | ⟨h, -⟩ <;> simp [h]
    have h5 : ¬ ((!r.dcr && r.vertical && !e.secured) = true) := by
      rcases h3 with h | ⟨-, h⟩
      · simp [h]
      · intro hx; simp only [Bool.and_eq_true, Bool.not_eq_true'] at hx
        rw [h hx.1.2] at hx; simp at hx
    rw [if_neg h4, if_neg h5, hrest]
    constructor
    · intro h; exact .inr ⟨h1, h3, h⟩
    · rintro (h | ⟨-, -, h⟩)
      · exact absurd h h2
      · exact h
  · have hd : r.dcr = false := by
      cases hx : r.dcr with
      | false => rfl
      | true => exact absurd (.inl hx) h3
    have : (if (!r.dcr && decide (e.dos ≠ .rfnop)) = true then false
        else if (!r.dcr && r.vertical && !e.secured) = true then false else (checkRest e r m).1) = false := by
      by_cases h4 : e.dos = .rfnop
      · rw [if_neg (by simp [h4])]
        rw [if_pos]
        simp only [hd, Bool.not_false, Bool.true_and, Bool.and_eq_true, Bool.not_eq_true']
        cases hv : r.vertical with
        | false => exact absurd (.inr ⟨h4, by simp [hv]⟩) h3
        | true =>
          cases hs : e.secured with
          | true => exact absurd (.inr ⟨h4, by simp [hs]⟩) h3
          | false => simp
      · rw [if_pos (by simp [hd, h4])]
    rw [this]
    constructor
    · intro h; cases h
    · rintro (h | ⟨-, h, -⟩)
      · exact absurd h h2
      · exact absurd h h3

/-- Removing ACEs never gives access: what is allowed with some ACEs is allowed
with more. In particular the order of the list does not matter. -/
theorem more_aces (e : Env) (acl : List Ace) (r : Res) (m : Method) (hu : r.uri.head? = some 47)
    (h : ∀ a ∈ e.acl, a ∈ acl) (hc : (checkAcl e r m).1 = true) : (checkAcl { e with acl } r m).1 = true := by
  have hg : ∀ s, Spec.Grants e.acl s r m → Spec.Grants acl s r m := by
    rintro s ⟨a, ha, x⟩; exact ⟨a, h a ha, x⟩
  rw [check_spec _ _ _ hu] at hc ⊢
  have hp : Spec.ByPermissions e r m → Spec.ByPermissions { e with acl } r m := by
    rintro (x | ⟨p, hp, x | ⟨role, au, hr, x⟩⟩ | ⟨hs, x⟩)
    · exact .inl (hg _ x)
    · exact .inr (.inl ⟨p, hp, .inl x⟩)
    · exact .inr (.inl ⟨p, hp, .inr ⟨role, au, hr, hg _ x⟩⟩)
    · exact .inr (.inr ⟨hs, x.imp (hg _) (fun y => ⟨y.1, hg _ y.2⟩)⟩)
  rcases hc with x | ⟨a, c, x | x | x | ⟨d, f, x | x | x⟩⟩
  · exact .inl x
  · exact .inr ⟨a, c, .inl x⟩
  · exact .inr ⟨a, c, .inr (.inl x)⟩
  · exact .inr ⟨a, c, .inr (.inr (.inl x))⟩
  · exact .inr ⟨a, c, .inr (.inr (.inr ⟨d, f, .inl x⟩))⟩
  · exact .inr ⟨a, c, .inr (.inr (.inr ⟨d, f, .inr (.inl x)⟩))⟩
  · exact .inr ⟨a, c, .inr (.inr (.inr ⟨d, f, .inr (.inr (hp x))⟩))⟩

/-- An application resource is only reachable in normal operation, and only by an
ACE or the owner role (or because it is readable by everyone), unless the
application opened it for onboarding. -/
theorem app_resource_needs_permission (e : Env) (r : Res) (m : Method) (hu : r.uri.head? = some 47)
    (hd : r.dcr = false) (hsec : ∀ u ∈ ["/oic/sec/acl2", "/oic/sec/doxm", "/oic/sec/pstat", "/oic/sec/cred", "/oic/sec/roles"], r.uri ≠ b u)
    (hc : (checkAcl e r m).1 = true) :
    (e.dos = .rfotm ∧ r.accessInRfotm = true ∧ Spec.Permits m r.anonPerm) ∨
    (e.dos = .rfnop ∧ (r.vertical = true → e.secured = true) ∧
      (Spec.ByPermissions e r m ∨ (m = .get ∧ Spec.OpenToRead e r))) := by
  simp only [List.mem_cons, List.not_mem_nil, or_false, forall_eq_or_imp, forall_eq] at hsec
  obtain ⟨u1, u2, u3, u4, u5⟩ := hsec
  rw [check_spec _ _ _ hu] at hc
  rcases hc with ⟨a, -, -, -, c, d⟩ | ⟨-, c | ⟨c, d⟩, x⟩
  · exact .inl ⟨a, c, d⟩
  · rw [hd] at c; cases c
  · refine .inr ⟨c, d, ?_⟩
    rcases x with ⟨x, -⟩ | x | ⟨x, -⟩ | ⟨-, -, x | ⟨-, x, -⟩ | x⟩
    · rw [hd] at x; cases x
    · exact .inr x
    · rw [c] at x; cases x
    · rcases x with ⟨x, -⟩ | ⟨x, -⟩ | ⟨x, -⟩ | ⟨x, -⟩
      · exact absurd x u1
      · exact absurd x u2
      · exact absurd x u3
      · exact absurd x u4
    · exact absurd x u5
    · exact .inl x

/-! ### Roles -/

theorem certLoop_roles (e : Env) (r : Res) (l : List RoleCred) : ∀ p,
    (certLoop e r l p).2.filter RoleCred.valid = l.filter RoleCred.valid ∧ (certLoop e r l p).2.Sublist l := by
  induction l with
  | nil => intro p; exact ⟨rfl, List.Sublist.refl _⟩
  | cons c l ih =>
    intro p
    rw [certLoop]
    cases hv : c.valid with
    | false =>
      rw [if_pos (by simp)]
      have := ih p
      exact ⟨by rw [this.1, List.filter_cons_of_neg (by simp [hv])], this.2.cons _⟩
    | true =>
      rw [if_neg (by simp)]
      by_cases ho : c.role = ownerRole
      · rw [if_pos ho]; exact ⟨rfl, List.Sublist.refl _⟩
      · rw [if_neg ho]
        have := ih (p ||| subjectPermission e.acl (.role c.role c.authority) r)
        exact ⟨by simp only [List.filter_cons, this.1], this.2.cons_cons _⟩

/-- C27, effect on roles: a decision never drops a role with a valid certificate,
and adds none. -/
theorem roles_kept (e : Env) (r : Res) (m : Method) (p : Peer) (hp : e.peer = some p) :
    ∃ roles, (checkAcl e r m).2 = some roles ∧
      roles.filter RoleCred.valid = p.roles.filter RoleCred.valid ∧ roles.Sublist p.roles := by
  have base : ∃ roles, (e.peer.map Peer.roles) = some roles ∧
      roles.filter RoleCred.valid = p.roles.filter RoleCred.valid ∧ roles.Sublist p.roles :=
    ⟨p.roles, by rw [hp]; rfl, rfl, List.Sublist.refl _⟩
  have hb : ∃ roles, (byPermissions e r m).2 = some roles ∧
      roles.filter RoleCred.valid = p.roles.filter RoleCred.valid ∧ roles.Sublist p.roles := by
    rw [byPermissions]
    simp only [hp]
    refine ⟨_, rfl, ?_⟩
    rw [peerPermissions]
    split
    · exact ⟨rfl, List.Sublist.refl _⟩
    · split
      · exact certLoop_roles e r p.roles 0
      · exact ⟨rfl, List.Sublist.refl _⟩
  rw [checkAcl]
  repeat' split
  all_goals try exact base
  rw [checkRest]
  repeat' split
  all_goals try exact base
  all_goals exact hb

/-! ## C28 -/

/-- An anonymous requester: no secured channel, hence no peer and no identity. -/
structure Anonymous (e : Env) : Prop where
  clear : e.secured = false
  noPeer : e.peer = none
  noId : e.di = nilId

/-- What anonymous requesters may do: what the application opened for onboarding,
the resources that everyone may retrieve, doxm and (reading) pstat before
onboarding, and what an anon-clear ACE grants. -/
def AnonRules (e : Env) (r : Res) (m : Method) : Prop :=
  (e.dos = .rfotm ∧ e.cfg.rfotmAccess = true ∧ r.accessInRfotm = true ∧ Spec.Permits m r.anonPerm) ∨
  (m = .get ∧ Spec.OpenToRead e r) ∨
  (e.dos = .rfotm ∧ e.numPeers = 0 ∧ (r.uri = b "/oic/sec/doxm" ∨ (m = .get ∧ r.uri = b "/oic/sec/pstat"))) ∨
  (r.svr = false ∧ (r.dcr = true ∨ (e.dos = .rfnop ∧ r.vertical = false)) ∧ Spec.Grants e.acl (.conn .anonClear) r m)

/-- The resources with an owner are security resources. -/
def OwnedAreSvr (r : Res) : Prop :=
  ∀ u ∈ ["/oic/sec/acl2", "/oic/sec/doxm", "/oic/sec/pstat", "/oic/sec/cred", "/oic/sec/roles"], r.uri = b u → r.svr = true

/-- C28 as far as it holds: if no ACE has the nil UUID as subject and the resource
owners are set or the device is provisioned, anonymous requesters only get what
the rules for them grant. Missing: the hypotheses are needed, see
`nil_subject_false`, `reset_owner_false` and `two_peers_false`. -/
theorem anonymous_partial (e : Env) (r : Res) (m : Method) (hu : r.uri.head? = some 47) (ha : Anonymous e)
    (hr : OwnedAreSvr r)
    (hacl : ∀ a ∈ e.acl, a.subject ≠ .uuid nilId)
    (hown : Spec.Provisioned e.dos ∨ (e.aclOwner ≠ nilId ∧ e.doxmOwner ≠ nilId ∧ e.pstatOwner ≠ nilId ∧ e.credOwner ≠ nilId))
    (hc : (checkAcl e r m).1 = true) : AnonRules e r m := by
  simp only [OwnedAreSvr, List.mem_cons, List.not_mem_nil, or_false, forall_eq_or_imp, forall_eq] at hr
  obtain ⟨s1, s2, s3, s4, s5⟩ := hr
  rw [check_spec _ _ _ hu] at hc
  rcases hc with ⟨a, -, -, c, d, f⟩ | ⟨-, hk, x⟩
  · exact .inl ⟨a, c, d, f⟩
  rcases x with ⟨-, p, hp, -⟩ | x | x | ⟨-, hns, x⟩
  · rw [ha.noPeer] at hp; cases hp
  · exact .inr (.inl x)
  · exact .inr (.inr (.inl x))
  · have hsvr : Spec.Provisioned e.dos → r.svr = true → False := fun a c => hns ⟨c, ha.clear, a⟩
    rcases x with x | ⟨-, x, y⟩ | x
    · exfalso
      rcases hown with hp | ⟨o1, o2, o3, o4⟩
      · rcases x with ⟨x, -⟩ | ⟨x, -⟩ | ⟨x, -⟩ | ⟨x, -⟩
        · exact hsvr hp (s1 x)
        · exact hsvr hp (s2 x)
        · exact hsvr hp (s3 x)
        · exact hsvr hp (s4 x)
      · rcases x with ⟨-, x⟩ | ⟨-, x⟩ | ⟨-, x⟩ | ⟨-, x⟩
        · exact o1 (x.trans ha.noId)
        · exact o2 (x.trans ha.noId)
        · exact o3 (x.trans ha.noId)
        · exact o4 (x.trans ha.noId)
    · exact (hsvr y (s5 x)).elim
    · rcases x with ⟨a, hm, hs, -⟩ | ⟨p, hp, -⟩ | ⟨hs, x | ⟨x, -⟩⟩
      · exfalso
        cases hsub : a.subject with
        | uuid i =>
          rw [hsub, ha.noId] at hs
          simp only [Spec.IsSubject] at hs
          exact hacl a hm (by rw [hsub, hs])
        | role => rw [hsub] at hs; exact hs
        | conn => rw [hsub] at hs; exact hs
      · rw [ha.noPeer] at hp; cases hp
      · refine .inr (.inr (.inr ⟨hs, ?_, x⟩))
        rcases hk with hk | ⟨hk, hv⟩
        · exact .inl hk
        · refine .inr ⟨hk, ?_⟩
          cases hx : r.vertical with
          | false => rfl
          | true => have := hv hx; rw [ha.clear] at this; cases this
      · rw [ha.clear] at x; cases x

/-- C28 for the security resources of a provisioned device, without any hypothesis
on the lists: an anonymous requester gets nothing. -/
theorem anonymous_svr (e : Env) (r : Res) (m : Method) (hu : r.uri.head? = some 47) (ha : Anonymous e)
    (hs : r.svr = true) (hp : Spec.Provisioned e.dos) (ho : ¬ Spec.OpenToRead e r) : (checkAcl e r m).1 = false := by
  cases hc : (checkAcl e r m).1 with
  | false => rfl
  | true =>
    rw [check_spec _ _ _ hu] at hc
    rcases hc with ⟨a, -⟩ | ⟨-, -, ⟨-, p, x, -⟩ | ⟨-, x⟩ | ⟨x, -⟩ | ⟨-, x, -⟩⟩
    · rcases hp with h | h | h <;> rw [h] at a <;> cases a
    · rw [ha.noPeer] at x; cases x
    · exact absurd x ho
    · rcases hp with h | h | h <;> rw [h] at x <;> cases x
    · exact absurd ⟨hs, ha.clear, hp⟩ x

/-! ## Examples -/

/-- A light: application resource, discoverable, with unsecured endpoint. -/
def light : Res := ⟨b "/light", false, false, true, true, false, false, 0⟩
/-- The access control resource. -/
def acl2 : Res := ⟨b "/oic/sec/acl2", true, true, false, true, true, false, 0⟩
/-- A requester. -/
def alice : Id := List.replicate 16 1
/-- The owner. -/
def owner : Id := List.replicate 16 2
/-- Alice may read and update all discoverable resources. -/
def aliceAce : Ace := ⟨1, .uuid alice, 6, none, [⟨none, .secured⟩]⟩
/-- A device in normal operation, with a request from Alice. -/
def normal : Env :=
  ⟨⟨true, true, true, true⟩, .rfnop, true, alice, 1, some ⟨false, true, []⟩, [aliceAce], [], owner, owner, owner, owner⟩

example : light.uri.head? = some 47 ∧ (checkAcl normal light .post).1 = true ∧ (checkAcl normal light .delete).1 = false ∧
    (checkAcl normal acl2 .get).1 = false ∧ (checkAcl { normal with di := owner } acl2 .post).1 = true ∧
    (checkAcl { normal with dos := .rfpro } light .get).1 = false := by decide
example : Spec.Allowed normal light .get := (check_spec normal light .get (by decide)).1 (by decide)

/-- An anonymous requester of a public resource. -/
def lamp : Res := ⟨b "/lamp", false, false, false, true, false, false, 0⟩
/-- Everyone may read the lamp. -/
def anonAce : Ace := ⟨2, .conn .anonClear, 2, none, [⟨some (b "/lamp"), .no⟩]⟩
/-- A request without identity. -/
def anon : Env := { normal with secured := false, di := nilId, peer := none, acl := [aliceAce, anonAce] }
example : Anonymous anon ∧ OwnedAreSvr lamp ∧ (∀ a ∈ anon.acl, a.subject ≠ .uuid nilId) ∧ Spec.Provisioned anon.dos ∧
    (checkAcl anon lamp .get).1 = true ∧ (checkAcl anon lamp .post).1 = false ∧ (checkAcl anon light .get).1 = false := by
  refine ⟨⟨rfl, rfl, rfl⟩, ?_, ?_, .inr (.inl rfl), ?_⟩ <;> first | decide | (unfold OwnedAreSvr; decide)

/-! ## What does not hold -/

/-- C28 fails: an ACE of the nil UUID (which an update without subject creates)
is a rule for a particular subject that gives anonymous requesters access. -/
theorem nil_subject_false :
    ∃ e r m, Anonymous e ∧ OwnedAreSvr r ∧ Spec.Provisioned e.dos ∧ (checkAcl e r m).1 = true ∧ ¬ AnonRules e r m := by
  refine ⟨{ anon with acl := [⟨1, .uuid nilId, 4, none, [⟨some (b "/lamp"), .no⟩]⟩] }, lamp, .post,
    ⟨rfl, rfl, rfl⟩, by unfold OwnedAreSvr; decide, .inr (.inl rfl), by decide, ?_⟩
  rintro (⟨h, -⟩ | ⟨h, -⟩ | ⟨h, -⟩ | ⟨-, -, a, h, h', -⟩)
  · cases h
  · cases h
  · cases h
  · simp only [List.mem_singleton] at h; subst h; exact h'

/-- C28 fails in the reset state: the owners are the nil UUID, which is the identity
of an anonymous requester; it may update the access control list. -/
theorem reset_owner_false :
    Anonymous { anon with dos := .reset, aclOwner := nilId, acl := [] } ∧
    (checkAcl { anon with dos := .reset, aclOwner := nilId, acl := [] } acl2 .post).1 = true :=
  ⟨⟨rfl, rfl, rfl⟩, by decide⟩

/-- C28 fails before ownership transfer if there are two or more TLS peers: the
refusal of unsecured requests while the onboarding connection is open (:447) tests
for exactly one. -/
theorem two_peers_false :
    Anonymous { anon with dos := .rfotm, numPeers := 2, aclOwner := nilId, acl := [] } ∧
    (checkAcl { anon with dos := .rfotm, numPeers := 2, aclOwner := nilId, acl := [] } acl2 .post).1 = true ∧
    (checkAcl { anon with dos := .rfotm, numPeers := 1, aclOwner := nilId, acl := [] } acl2 .post).1 = false :=
  ⟨⟨rfl, rfl, rfl⟩, by decide, by decide⟩

end Verif.Acl
