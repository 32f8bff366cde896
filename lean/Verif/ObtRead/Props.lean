import Verif.ObtRead.Lemmas

/-! C144: what an onboarding tool reads from a device is what the device has. -/

namespace Verif.ObtRead

open Verif.Rep (Bytes b Val Rep)
open Verif.Acl (Id nilId Conn Wc Ace AclState Entry Subject Made Valid AclOp runOps defaultAcl Baseline)
open Verif.Sec (strToUuid toInt32)
open Verif.Cred (Cred Data)
open Spec

/-- A UUID for the examples. -/
def exId : Id := 0x2b :: List.replicate 15 7

/-! ## The access control list -/

/-- C144. After any history of the device's list that leaves it non-empty, the
callback of the tool is given the owner and exactly the ACEs of the device, in
order. Missing: the empty list (`empty_acl_ub`). -/
theorem acl_read_partial (base : Rep) (ops : List AclOp) (st : AclState) (code : Nat) (hc : code < 5)
    (hb : Baseline base) (ht : ∀ o ∈ ops, o.Typed) (hr : runOps ops defaultAcl = .ok st) (hne : st.aces ≠ []) :
    ∃ l, aclResult code (answerAcl base st) = .ok (some (st.owner, l)) ∧ All2 SameAce st.aces l := by
  obtain ⟨ho, hm⟩ := Acl.reachable_made ops defaultAcl st ht ⟨rfl, by simp [defaultAcl]⟩ hr
  obtain ⟨l, hl, hs⟩ := aces_told st.aces hm
  have hemp : st.aces.isEmpty = false := by cases h : st.aces <;> simp_all
  refine ⟨l, ?_, hs⟩
  unfold aclResult answerAcl
  rw [if_pos (show code < badRequest from hc), acl_base _ _ _ hb, hemp]
  simp only [Bool.false_eq_true, if_false]
  rw [decodeAcl, hl]
  simp only [Out.bind]
  rw [decodeAcl, if_pos rfl, Sec.strToUuid_text _ _ ho]
  simp only [Out.bind, decodeAcl]
  cases l with
  | nil =>
    cases h : st.aces with
    | nil => exact absurd h hne
    | cons a r => rw [h] at hs; exact hs.elim
  | cons x r => rfl

example : ∃ l, aclResult 0 (answerAcl [(b "rt", .strs [b "oic.r.acl2"])]
    ⟨[⟨7, .uuid nilId, 0, none, [⟨none, .secured⟩]⟩], nilId⟩) = .ok (some (nilId, l)) ∧
    All2 SameAce [⟨7, .uuid nilId, 0, none, [⟨none, .secured⟩]⟩] l :=
  acl_read_partial _ Acl.history _ 0 (by decide)
    (by intro kv h; simp only [List.mem_singleton] at h; subst h; exact ⟨by decide, by intro l h; cases h⟩)
    (by
      intro o ho
      simp only [Acl.history, List.mem_cons, List.not_mem_nil, or_false] at ho
      rcases ho with rfl | rfl | rfl | rfl
      · intro u h; cases h
      all_goals trivial)
    rfl (by simp)

/-- C144, the same for one list, as what an ACE with any subject and any names or
wildcards is read as. -/
theorem ace_read (a : Ace) (hm : Made a) : ∃ r, decodeAce (answerAce a) = .ok r ∧ SameAce a r := ace_told a hm

example : decodeAce (answerAce ⟨3, .role (b "admin") (b "org"), 6, some (b "t"), [⟨some (b "/light"), .no⟩, ⟨none, .pub⟩]⟩) =
    .ok ⟨3, .role (some (b "admin")) (some (b "org")), 6, [⟨some (b "/light"), .no⟩, ⟨none, .pub⟩]⟩ := by rfl

/-- C144 fails for the empty list: the array without elements is not an array of
objects, the tool's list is never initialised, and its length is read through a
null pointer (security/oc_obt.c:3164, 3309; util/oc_list.c:167). -/
theorem empty_acl_ub (base : Rep) (owner : Id) (code : Nat) (hc : code < 5) (hb : Baseline base)
    (ho : owner.length = 16) : aclResult code (answerAcl base ⟨[], owner⟩) = .ub := by
  unfold aclResult answerAcl
  rw [if_pos (show code < badRequest from hc), acl_base _ _ _ hb]
  simp only [List.isEmpty_nil, if_true]
  rw [decodeAcl, decodeAcl, if_pos rfl, Sec.strToUuid_text _ _ ho]
  · rfl
  all_goals (intro _ _ hq; cases hq)

example : aclResult 0 (answerAcl [] ⟨[], exId⟩) = .ub :=
  empty_acl_ub [] exId 0 (by decide) (by intro kv h; cases h) rfl

/-- C144: any successful response without an array of objects, such as one
without a payload, has undefined behaviour. -/
theorem no_list_ub (code : Nat) (hc : code < 5) : ∀ (p : Rep), (∀ kv ∈ p, ∀ l, kv.2 ≠ .objs l) →
    aclResult code p = .ub := by
  have key : ∀ (p : Rep) (x : RAcl), x.aces = none → (∀ kv ∈ p, ∀ l, kv.2 ≠ .objs l) →
      decodeAcl p x = .ub ∨ ∃ y, decodeAcl p x = .ok y ∧ y.aces = none := by
    intro p
    induction p with
    | nil => intro x hx _; exact .inr ⟨x, rfl, hx⟩
    | cons kv p ih =>
      intro x hx h
      obtain ⟨k, v⟩ := kv
      have ih' := fun y hy => ih y hy fun z hz => h z (by simp [hz])
      cases v with
      | objs l => exact absurd rfl (h (k, .objs l) (by simp) l)
      | str s =>
        rw [decodeAcl]
        split
        · cases hu : strToUuid x.owner s with
          | ub => exact .inl rfl
          | ok u => exact ih' _ hx
        · exact ih' _ hx
      | _ => rw [decodeAcl]; exact ih' _ hx; all_goals (intro _ _ hq; cases hq)
  intro p hp
  unfold aclResult
  rw [if_pos (show code < badRequest from hc)]
  rcases key p {} rfl hp with h | ⟨y, h, hy⟩
  · rw [h]; rfl
  · rw [h, Out.bind, hy]

example : aclResult 0 [] = .ub := no_list_ub 0 (by decide) [] (by intro kv h; cases h)

/-- C144: an error, a timeout or a closed connection gives the callback nothing,
whatever the payload. -/
theorem acl_error (code : Nat) (hc : 5 ≤ code) (p : Rep) : aclResult code p = .ok none := by
  unfold aclResult
  exact if_neg fun q => Nat.not_lt.2 hc q

example : aclResult 9 [(b "aclist2", .objs [[]])] = .ok none := acl_error 9 (by decide) _

/-- C144 fails for a type of connection that the tool does not know: it is shown as
the authenticated one. -/
theorem unknown_conn_false : ∃ (p : Rep) (l : List RAce), p = [(b "aclist2", .objs [[(b "subject", .obj [(b "conntype", .str (b "auth-clear"))])]])] ∧
    aclResult 0 p = .ok (some (nilId, l)) ∧ l.map (·.sub) = [.conn .authCrypt] :=
  ⟨_, _, rfl, rfl, rfl⟩

/-- C144: a role that is no text makes the tool copy from a null pointer
(security/oc_obt.c:3198-3203 does not look at the type). -/
theorem role_type_ub : aclResult 0 [(b "aclist2", .objs [[(b "subject", .obj [(b "role", .int 5)])]])] = .ub := rfl

/-- C144 fails for a second array of objects: whatever its name, the list read before
is lost. -/
theorem second_array_false (l m : List Rep) (x y : List RAce) (z : RAce) (hl : decodeAces l = .ok x) (hm : decodeAces m = .ok (z :: y)) :
    aclResult 0 [(b "aclist2", .objs l), (b "x.org.more", .objs m)] = .ok (some (nilId, z :: y)) := by
  unfold aclResult
  rw [if_pos (by decide), decodeAcl, hl]
  simp only [Out.bind]
  rw [decodeAcl, hm]
  simp only [Out.bind, decodeAcl]

example : aclResult 0 [(b "aclist2", .objs [[(b "aceid", .int 1)], [(b "aceid", .int 2)]]), (b "x.org.more", .objs [[]])] =
    .ok (some (nilId, [{}])) := second_array_false _ _ [{ aceid := 1 }, { aceid := 2 }] [] {} rfl rfl

/-! ## The credentials -/

/-- C144. The callback of the tool is given the owner and the credentials of the
device in order: identifiers, types, subjects, usages, public data, and roles of
pre-shared keys, and no private data. -/
theorem creds_read (os : Cred → Rep) (base : Rep) (creds : List Cred) (owner : Id) (code : Nat) (hc : code < 5)
    (hb : Baseline base) (ho : owner.length = 16) (ht : ∀ c ∈ creds, Tellable c) (hne : creds ≠ []) :
    ∃ l, credResult code (answerCreds os base creds owner) = .ok (some (owner, l)) ∧ All2 SameCred creds l := by
  obtain ⟨l, hl, hs⟩ := credArr_told os creds ht
  have hemp : creds.isEmpty = false := by cases h : creds <;> simp_all
  refine ⟨l, ?_, hs⟩
  unfold credResult answerCreds
  rw [if_pos (show code < badRequest from hc), creds_base _ _ _ hb, hemp]
  simp only [Bool.false_eq_true, if_false]
  rw [decodeCreds, if_pos (.inl rfl), hl]
  simp only [Out.bind, List.nil_append]
  rw [decodeCreds, if_pos rfl, Sec.strToUuid_text _ _ ho]
  simp only [Out.bind, decodeCreds]
  cases l with
  | nil =>
    cases h : creds with
    | nil => exact absurd h hne
    | cons a r => rw [h] at hs; exact hs.elim
  | cons x r => rfl

/-- Two credentials of a device (example): a key with a role and a certificate. -/
def exCreds : List Cred :=
  [⟨0, 4, 1, 0, exId, ⟨[9, 9], 2⟩, {}, b "admin", [], [], false, false⟩,
   ⟨1, 5, 8, 4, 42 :: List.replicate 15 0, ⟨[1], 2⟩, ⟨b "PEM", 3⟩, b "r", [], [], true, false⟩]

example : ∃ l, credResult 0 (answerCreds (fun _ => []) [] exCreds exId) = .ok (some (exId, l)) ∧ All2 SameCred exCreds l :=
  creds_read _ _ _ _ 0 (by decide) (by intro kv h; cases h) rfl
    (by
      intro c h
      simp only [exCreds, List.mem_cons, List.not_mem_nil, or_false] at h
      rcases h with rfl | rfl
      · exact ⟨by decide, by decide, .inl rfl, by decide, rfl, by decide⟩
      · exact ⟨by decide, by decide, .inr (.inr (.inl rfl)), by decide, rfl, fun _ => rfl⟩)
    (by simp [exCreds])

/-- C144: a device without credentials: the callback is given nothing. -/
theorem no_creds (os : Cred → Rep) (base : Rep) (owner : Id) (code : Nat) (hb : Baseline base) (ho : owner.length = 16) :
    credResult code (answerCreds os base [] owner) = .ok none := by
  unfold credResult answerCreds
  split
  · rw [creds_base _ _ _ hb]
    simp only [List.isEmpty_nil, if_true]
    rw [decodeCreds, decodeCreds, if_pos rfl, Sec.strToUuid_text _ _ ho]
    · rfl
    all_goals (intro _ _ hq; cases hq)
  · rfl

example : credResult 0 (answerCreds (fun _ => []) [] [] exId) = .ok none :=
  no_creds _ _ _ _ (by intro kv h; cases h) rfl

/-- C144: the answer does not depend on the private data: whoever reads the
credentials of a device learns nothing about its keys. (`os`, the object about
the OSCORE context, is taken not to depend on them.) -/
theorem private_kept (os : Cred → Rep) (base : Rep) (owner : Id) (f : Cred → Bytes) (creds : List Cred)
    (hos : ∀ c p, os { c with priv := p } = os c) :
    answerCreds os base (creds.map fun c => { c with priv := { c.priv with bytes := f c } }) owner =
      answerCreds os base creds owner := by
  have h : ∀ c : Cred, answerCred os { c with priv := { c.priv with bytes := f c } } = answerCred os c := by
    intro c
    unfold answerCred
    rw [hos]
    rfl
  unfold answerCreds
  rw [List.map_map, List.isEmpty_map]
  rw [show (answerCred os ∘ fun c => { c with priv := { c.priv with bytes := f c } }) = answerCred os from funext h]

example : answerCreds (fun _ => []) [] (exCreds.map fun c => { c with priv := { c.priv with bytes := [] } }) exId =
    answerCreds (fun _ => []) [] exCreds exId := private_kept _ _ _ (fun _ => []) _ fun _ _ => rfl

/-- C144 fails for a subject whose UUID starts with the byte of the character `*`:
it is told as the wildcard (security/oc_cred.c:848), so that the credentials of two
such devices look the same. -/
theorem star_subject_false : ∃ u v : Id, u.length = 16 ∧ v.length = 16 ∧ u ≠ v ∧
    ∀ (os : Cred → Rep) (c : Cred), answerCred os { c with subject := u, oscore := false } = answerCred os { c with subject := v, oscore := false } :=
  ⟨42 :: List.replicate 15 1, 42 :: List.replicate 15 2, rfl, rfl, by decide, fun _ _ => rfl⟩

/-- C144: a role of a credential that is no text makes the tool copy from a null
pointer (security/oc_obt.c:2915-2931 does not look at the type). -/
theorem cred_role_type_ub : credResult 0 [(b "creds", .objs [[(b "roleid", .obj [(b "role", .int 5)])]])] = .ub := rfl

/-- C144: an error gives the callback nothing. -/
theorem creds_error (code : Nat) (hc : 5 ≤ code) (p : Rep) : credResult code p = .ok none := by
  unfold credResult
  exact if_neg fun q => Nat.not_lt.2 hc q

example : credResult 5 [(b "creds", .objs [[]])] = .ok none := creds_error 5 (by decide) _

/-! ## Callbacks -/

/-- C144: whatever requests are made and whatever responses come, in any order and
any number, the callback of a request is called at most once. -/
theorem once {α : Type} (res : Nat → Rep → Out (Option α)) (ops : List Op) (t : Tool α)
    (h : run res ops {} = .ok t) : (t.calls.map (·.1)).Nodup :=
  (List.nodup_append.1 (inv_run res ops {} t inv_init h).nodup).2.1

/-- C144: a request that returned 0 is pending; the next response to it calls the
callback with what was read, and further responses do nothing. -/
theorem answered {α : Type} (res : Nat → Rep → Out (Option α)) (ops : List Op) (t : Tool α)
    (h : run res ops {} = .ok t) (o f m s : Bool) (t' : Tool α) (hr : retrieve o f m s t = (true, t'))
    (code : Nat) (p : Rep) (x : Option α) (hx : res code p = .ok x) :
    ∃ t'', respond res t.made code p t' = .ok t'' ∧ t''.calls = t.calls ++ [(t.made, x)] ∧
      t''.pending = t.pending ∧ ∀ code' p', respond res t.made code' p' t'' = .ok t'' := by
  have hi := inv_run res ops {} t inv_init h
  have hn : t.made ∉ t.pending := fun q => Nat.lt_irrefl _ (hi.lt _ (by simp [q]))
  have ht : t' = { t with pending := t.pending ++ [t.made], made := t.made + 1 } := by
    unfold retrieve at hr
    split at hr
    · cases hr
    · split at hr
      · cases hr
      · split at hr
        · cases hr
        · split at hr
          · cases hr
          · simp only [Prod.mk.injEq, true_and] at hr; exact hr.symm
  subst ht
  have he : (t.pending ++ [t.made]).erase t.made = t.pending := by
    rw [List.erase_append_right _ hn, List.erase_cons_head, List.append_nil]
  refine ⟨{ t with pending := t.pending, made := t.made + 1, calls := t.calls ++ [(t.made, x)] }, ?_, rfl, rfl, ?_⟩
  · unfold respond
    rw [if_pos (by simp), hx]
    simp only [Out.bind, he]
  · intro code' p'
    unfold respond
    exact if_neg (by simpa using hn)

/-- C144: a request that failed calls nothing: not at once, and no response is waited
for. -/
theorem failed {α : Type} (o f m s : Bool) (t t' : Tool α) (hr : retrieve o f m s t = (false, t')) :
    t'.calls = t.calls ∧ t'.pending = t.pending ∧ (o && f && m && s) = false := by
  unfold retrieve at hr
  cases o <;> cases f <;> cases m <;> cases s <;> simp at hr <;> subst hr <;> exact ⟨rfl, rfl, rfl⟩

/-- C144: a request for an owned device that is found, with memory and a request
sent, returns 0. -/
theorem started {α : Type} (t : Tool α) : (retrieve true true true true t).1 = true := rfl

/-- A history: a request, its answer, and a second copy of the answer. -/
def exOps : List Op :=
  [.retrieve true true true true, .respond 0 0 [(b "aclist2", .objs [[(b "aceid", .int 1)]])], .respond 0 9 []]

example : ∃ t, run aclResult exOps {} = .ok t ∧ t.calls = [(0, some (nilId, [{ aceid := 1 }]))] ∧ (t.calls.map (·.1)).Nodup :=
  ⟨_, rfl, rfl, once aclResult exOps _ rfl⟩

example : ∃ t'', respond aclResult 1 9 [] ⟨[1], 2, [(0, some (nilId, [{ aceid := 1 }]))]⟩ = .ok t'' ∧
    t''.calls = [(0, some (nilId, [{ aceid := 1 }])), (1, none)] ∧ t''.pending = [] ∧
    ∀ code' p', respond aclResult 1 code' p' t'' = .ok t'' :=
  answered aclResult exOps ⟨[], 1, [(0, some (nilId, [{ aceid := 1 }]))]⟩ rfl true true true true _ rfl 9 [] none rfl

example : (retrieve true false true true ({} : Tool Nat)).2.calls = [] :=
  (failed true false true true {} _ rfl).1

end Verif.ObtRead
