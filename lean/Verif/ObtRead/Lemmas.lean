import Verif.ObtRead.Spec
import Verif.Acl.StoreProps

/-! Lemmas for the properties of reading a device. -/

namespace Verif.ObtRead

open Verif.Rep (Bytes b Val Rep)
open Verif.Acl (Id nilId Conn Wc Ace AclState Entry Subject Made Valid)
open Verif.Sec (strToUuid toInt32)
open Verif.Cred (Cred Data)
open Spec

/-! ### The list -/

theorem sub_told (s : Subject) (hu : ∀ u, s = .uuid u → u.length = 16) :
    ∃ r, decodeSub (Acl.encodeSubject s) (.uuid nilId) = .ok r ∧ SameSubject s r := by
  cases s with
  | uuid u =>
    refine ⟨.uuid u, ?_, rfl⟩
    simp only [Acl.encodeSubject, decodeSub, if_true, textOf, Out.bind, setUuid, readUuid]
    rw [Sec.strToUuid_text _ _ (hu u rfl)]
  | role r a =>
    cases a with
    | nil => exact ⟨.role (some r) none, rfl, rfl⟩
    | cons c a => exact ⟨.role (some r) (some (c :: a)), rfl, rfl⟩
  | conn c => cases c <;> exact ⟨_, rfl, rfl⟩

theorem entry_told (e : Entry) (hv : Valid e) : SameEntry e (decodeRes (Acl.encodeEntry e) {}) := by
  obtain ⟨href, wc⟩ := e
  cases href with
  | none =>
    cases wc with
    | no => exact absurd rfl (hv.1 rfl)
    | all => rfl
    | secured => rfl
    | pub => rfl
  | some h =>
    cases h with
    | nil => have := hv.2 [] rfl; cases this
    | cons c h => rfl

theorem entries_told : ∀ l : List Entry, (∀ e ∈ l, Valid e) →
    All2 SameEntry l ((l.map Acl.encodeEntry).map fun r => decodeRes r {})
  | [], _ => trivial
  | e :: l, h => ⟨entry_told e (h e (by simp)), entries_told l fun x hx => h x (by simp [hx])⟩

theorem ace_told (a : Ace) (hm : Made a) : ∃ r, decodeAce (answerAce a) = .ok r ∧ SameAce a r := by
  obtain ⟨s, hs, hss⟩ := sub_told a.subject hm.uuid
  have hr : a.resources.isEmpty = false := by
    cases hx : a.resources with
    | nil => exact absurd hx hm.some
    | cons _ _ => rfl
  have hp : BitVec.ofInt 16 (a.permission.toNat : Int) = a.permission := by
    rw [BitVec.ofInt_natCast, BitVec.ofNat_toNat]; rfl
  have hk1 : ¬ (b "aceid" = b "permission") := by decide
  have hm' : decodeMembers (answerAce a) {} [] =
      .ok (⟨a.aceid, s, a.permission, []⟩, a.resources.map Acl.encodeEntry) := by
    unfold answerAce Acl.encodeAce
    simp only [hr, Bool.false_eq_true, if_false, List.cons_append, List.nil_append, List.append_nil]
    unfold decodeMembers
    rw [hs]
    simp only [Out.bind]
    unfold decodeMembers
    rw [if_pos rfl]
    unfold decodeMembers
    rw [if_pos rfl]
    unfold decodeMembers
    rw [if_neg hk1, if_pos rfl, hp, hm.range.1]
    rfl
  refine ⟨⟨a.aceid, s, a.permission, (a.resources.map Acl.encodeEntry).map fun r => decodeRes r {}⟩, ?_, ?_⟩
  · unfold decodeAce
    rw [hm']
    rfl
  · exact ⟨rfl, rfl, hss, entries_told _ hm.valid⟩

theorem aces_told : ∀ l : List Ace, (∀ a ∈ l, Made a) →
    ∃ r, decodeAces (l.map answerAce) = .ok r ∧ All2 SameAce l r
  | [], _ => ⟨[], rfl, trivial⟩
  | a :: l, h => by
    obtain ⟨x, hx, hs⟩ := ace_told a (h a (by simp))
    obtain ⟨r, hr, hl⟩ := aces_told l fun y hy => h y (by simp [hy])
    refine ⟨x :: r, ?_, hs, hl⟩
    simp only [List.map_cons, decodeAces, hx, hr, Out.bind]

theorem acl_base (r : Rep) (x : RAcl) : ∀ base, Acl.Baseline base → decodeAcl (base ++ r) x = decodeAcl r x := by
  intro base
  induction base with
  | nil => intro _; rfl
  | cons kv l ih =>
    intro hb
    obtain ⟨k, v⟩ := kv
    have h := hb (k, v) (by simp)
    have ih' := ih fun y hy => hb y (by simp [hy])
    rw [List.cons_append]
    cases v with
    | str s => rw [decodeAcl, if_neg h.1]; exact ih'
    | objs o => exact absurd rfl (h.2 o)
    | _ => rw [decodeAcl]; exact ih'; all_goals (intro _ _ hc; cases hc)

/-! ### The credentials -/

theorem encoding_text (e : Nat) (h : 0 < e ∧ e ≤ 4) :
    7 < (encodingText e).length ∧ Cred.encodingOf (encodingText e) = e := by
  have : e = 1 ∨ e = 2 ∨ e = 3 ∨ e = 4 := by omega
  rcases this with rfl | rfl | rfl | rfl <;> decide

theorem usage_text (u : Nat) (h : KnownUsage u) :
    (u = 0 ∧ ¬ (usageText u).length > 4) ∨ ((usageText u).length > 4 ∧ Cred.usageOf (usageText u) = u) := by
  rcases h with rfl | rfl | rfl | rfl | rfl | rfl <;> decide

theorem subject_text (old u : Id) (h : u.length = 16 ∧ (u.headD 0 = 42 → u = 42 :: List.replicate 15 0)) :
    strToUuid old (subjectText u) = .ok u := by
  unfold subjectText
  split
  · next hq => rw [h.2 hq]; rfl
  · exact Sec.strToUuid_text _ _ h.1

theorem creds_base (r : Rep) (x : Id × List RCred) : ∀ base, Acl.Baseline base → decodeCreds (base ++ r) x = decodeCreds r x := by
  intro base
  induction base with
  | nil => intro _; rfl
  | cons kv l ih =>
    intro hb
    obtain ⟨k, v⟩ := kv
    have h := hb (k, v) (by simp)
    have ih' := ih fun y hy => hb y (by simp [hy])
    rw [List.cons_append]
    cases v with
    | str s => rw [decodeCreds, if_neg h.1]; exact ih'
    | objs o => exact absurd rfl (h.2 o)
    | _ => rw [decodeCreds]; exact ih'; all_goals (intro _ _ hc; cases hc)

theorem priv_secret (c : Cred) (d : Data) (hd : d.bytes = []) : (decodeData (answerPriv c) d).bytes = [] := by
  unfold answerPriv
  split <;> simp [decodeData, hd, show b "data" ≠ b "encoding" from by decide]

theorem pub_told (c : Cred) (he : c.pub.enc ≤ 4) (hb : c.pub.bytes ≠ []) (o : Rep)
    (ho : answerPub c = [(b "publicdata", .obj o)]) : decodeData o {} = c.pub := by
  have hne : ¬ (b "data" = b "encoding") := by decide
  have hl : ¬ c.pub.bytes.length = 0 := by cases h : c.pub.bytes <;> simp_all
  unfold answerPub at ho
  rw [if_neg (by simpa using hb)] at ho
  simp only [List.cons.injEq, Prod.mk.injEq, Val.obj.injEq, true_and, and_true] at ho
  subst ho
  have hrest : decodeData (if (encodingText c.pub.enc).length > 7 then [(b "encoding", .str (encodingText c.pub.enc))] else [])
      ⟨c.pub.bytes, 0⟩ = c.pub := by
    by_cases hz : c.pub.enc = 0
    · rw [hz, if_neg (by decide), decodeData, ← hz]
    · have h := encoding_text c.pub.enc ⟨by omega, he⟩
      rw [if_pos h.1, decodeData, if_pos rfl, decodeData, h.2]
  split
  · rw [decodeData, if_neg hne, if_pos rfl, if_neg hl]; exact hrest
  · rw [decodeData, if_pos rfl, if_neg hl]; exact hrest

theorem role_told (c : Cred) (r : Rep) (x : RCred) (hx : x.role = none ∧ x.authority = none) :
    ∃ ro au, decodeCred (answerRole c ++ r) x = decodeCred r { x with role := ro, authority := au } ∧
      ro = (if c.typ = 1 ∧ c.role ≠ [] then some c.role else none) ∧
      au = (if c.typ = 1 ∧ c.role ≠ [] ∧ c.authority ≠ [] then some c.authority else none) := by
  obtain ⟨i, t, u, s, p, q, ro, au, ow⟩ := x
  obtain ⟨h1, h2⟩ := hx
  dsimp only at h1 h2
  subst h1 h2
  unfold answerRole
  by_cases hc : c.typ = Cred.psk ∧ ¬c.role.isEmpty
  · rw [if_pos hc]
    have ht : c.typ = 1 := hc.1
    have hr : c.role ≠ [] := by simpa using hc.2
    refine ⟨some c.role, if c.authority = [] then none else some c.authority, ?_, by simp [ht, hr], by simp only [ht, hr]; split <;> simp_all⟩
    rw [List.singleton_append, decodeCred, if_neg (by decide), if_neg (by decide), if_pos rfl, decodeRole, if_pos rfl]
    cases ha : c.authority with
    | nil => rfl
    | cons a l => rfl
  · rw [if_neg hc]
    have hc' : ¬ (c.typ = 1 ∧ c.role ≠ []) := fun q => hc ⟨q.1, by simpa using q.2⟩
    exact ⟨none, none, rfl, by rw [if_neg hc'], by rw [if_neg fun q => hc' ⟨q.1, q.2.1⟩]⟩

theorem cred_told (os : Cred → Rep) (c : Cred) (h : Tellable c) :
    ∃ r, decodeCred (answerCred os c) {} = .ok r ∧ SameCred c r := by
  unfold answerCred
  simp only [List.append_assoc, List.cons_append, List.nil_append]
  rw [decodeCred, if_pos rfl, decodeCred, if_neg (by decide), if_pos rfl, decodeCred, if_pos rfl, subject_text _ _ h.subject]
  simp only [Out.bind]
  obtain ⟨ro, au, he, hro, hau⟩ := role_told c
    ((b "privatedata", .obj (answerPriv c)) :: ((if c.oscore then [(b "oscore", .obj (os c))] else []) ++ (answerUsage c ++ answerPub c)))
    { id := toInt32 c.id, typ := toInt32 c.typ, subject := c.subject } ⟨rfl, rfl⟩
  rw [he, decodeCred, if_pos rfl]
  have hos : ∀ r x, decodeCred ((if c.oscore then [(b "oscore", .obj (os c))] else []) ++ r) x = decodeCred r x := by
    intro r x
    split
    · rw [List.singleton_append, decodeCred, if_neg (by decide), if_neg (by decide), if_neg (by decide)]
    · rfl
  rw [hos]
  have hus : ∀ r x, x.usage = 0 → decodeCred (answerUsage c ++ r) x = decodeCred r { x with usage := c.usage } := by
    intro r x hx
    unfold answerUsage
    rcases usage_text c.usage h.usage with ⟨hu, hl⟩ | ⟨hl, hu⟩
    · rw [if_neg hl, hu, ← hx]; rfl
    · rw [if_pos hl, List.singleton_append, decodeCred, if_neg (by decide), if_pos rfl, hu]
  rw [hus _ _ rfl]
  have hsec := priv_secret c {} rfl
  by_cases hb : c.pub.bytes = []
  · have hp : answerPub c = [] := by unfold answerPub; rw [if_pos (by simp [hb])]
    rw [hp, decodeCred]
    exact ⟨_, rfl, h.id, h.typ, rfl, rfl, hsec, fun q => absurd hb q, fun _ => rfl, hro, hau⟩
  · have hp : ∃ o, answerPub c = [(b "publicdata", .obj o)] := by
      unfold answerPub; rw [if_neg (by simpa using hb)]; exact ⟨_, rfl⟩
    obtain ⟨o, ho⟩ := hp
    rw [ho, decodeCred, if_neg (by decide), if_pos rfl, decodeCred]
    exact ⟨_, rfl, h.id, h.typ, rfl, rfl, hsec, fun _ => pub_told c h.pubEnc hb o ho, fun q => absurd q hb, hro, hau⟩

theorem credArr_told (os : Cred → Rep) : ∀ l : List Cred, (∀ c ∈ l, Tellable c) →
    ∃ r, decodeCredArr (l.map (answerCred os)) = .ok r ∧ All2 SameCred l r
  | [], _ => ⟨[], rfl, trivial⟩
  | a :: l, h => by
    obtain ⟨x, hx, hs⟩ := cred_told os a (h a (by simp))
    obtain ⟨r, hr, hl⟩ := credArr_told os l fun y hy => h y (by simp [hy])
    refine ⟨x :: r, ?_, hs, hl⟩
    simp only [List.map_cons, decodeCredArr, hx, hr, Out.bind]

/-! ### Callbacks -/

/-- Invariant: contexts are numbered in order, each is pending, was answered, or
neither, and none twice. -/
structure Inv {α : Type} (t : Tool α) : Prop where
  nodup : (t.pending ++ t.calls.map (·.1)).Nodup
  lt : ∀ c ∈ t.pending ++ t.calls.map (·.1), c < t.made

theorem inv_init {α : Type} : Inv ({} : Tool α) := ⟨List.nodup_nil, by intro c h; cases h⟩

theorem inv_retrieve {α : Type} (o f m s : Bool) (t : Tool α) (h : Inv t) : Inv (retrieve o f m s t).2 := by
  have hmore : Inv { t with made := t.made + 1 } := ⟨h.nodup, fun c hc => by have := h.lt c hc; dsimp only; omega⟩
  unfold retrieve
  split
  · exact h
  · split
    · exact h
    · split
      · exact h
      · split
        · exact hmore
        · refine ⟨?_, ?_⟩
          · have hn : t.made ∉ t.pending ++ t.calls.map (·.1) := fun q => Nat.lt_irrefl _ (h.lt _ q)
            have hnd := h.nodup
            simp only [List.nodup_append, List.mem_append, not_or] at hn hnd ⊢
            refine ⟨⟨hnd.1, by simp, ?_⟩, hnd.2.1, ?_⟩
            · intro a ha c hc; simp only [List.mem_singleton] at hc; subst hc; exact fun q => hn.1 (q ▸ ha)
            · intro a ha c hc
              rcases ha with ha | ha
              · exact hnd.2.2 a ha c hc
              · simp only [List.mem_singleton] at ha; subst ha; exact fun q => hn.2 (q ▸ hc)
          · intro c hc
            dsimp only
            simp only [List.mem_append, List.mem_singleton] at hc
            rcases hc with (hc | hc) | hc
            · have := h.lt c (by simp [hc]); omega
            · omega
            · have := h.lt c (by simp only [List.mem_append]; exact .inr hc); omega

theorem inv_respond {α : Type} (res : Nat → Rep → Out (Option α)) (c code : Nat) (p : Rep) (t t' : Tool α)
    (h : Inv t) (hr : respond res c code p t = .ok t') : Inv t' := by
  unfold respond at hr
  split at hr
  · next hc =>
    cases hx : res code p with
    | ub => rw [hx] at hr; cases hr
    | ok x =>
      rw [hx, Out.bind] at hr
      simp only [Out.ok.injEq] at hr
      subst hr
      have hmem : c ∈ t.pending := by simpa using hc
      have hperm : (t.pending.erase c ++ (t.calls ++ [(c, x)]).map (·.1)).Perm (t.pending ++ t.calls.map (·.1)) := by
        simp only [List.map_append, List.map_cons, List.map_nil, ← List.append_assoc]
        refine (List.perm_append_singleton _ _).trans ?_
        exact ((List.perm_cons_erase hmem).symm.append_right _)
      exact ⟨hperm.nodup_iff.2 h.nodup, fun a ha => h.lt a (hperm.mem_iff.1 ha)⟩
  · simp only [Out.ok.injEq] at hr; subst hr; exact h

theorem inv_run {α : Type} (res : Nat → Rep → Out (Option α)) : ∀ (ops : List Op) (t t' : Tool α), Inv t →
    run res ops t = .ok t' → Inv t' := by
  intro ops
  induction ops with
  | nil => intro t t' h hr; simp only [run, Out.ok.injEq] at hr; exact hr ▸ h
  | cons o l ih =>
    intro t t' h hr
    rw [run] at hr
    cases hs : step res t o with
    | ub => rw [hs] at hr; cases hr
    | ok u =>
      rw [hs, Out.bind] at hr
      refine ih u t' ?_ hr
      cases o with
      | retrieve o f m s => simp only [step, Out.ok.injEq] at hs; exact hs ▸ inv_retrieve o f m s t h
      | respond c code p => exact inv_respond res c code p t u h hs

end Verif.ObtRead
