import Verif.Acl.Store
import Verif.Acl.UpdateProps
import Verif.Sec.Lemmas

/-! C51: the access control list survives a restart. -/

namespace Verif.Acl

open Verif.Rep (Bytes b Val Rep)

/-! ## Reachable lists -/

/-- What holds of every ACE that the operations create. -/
structure Made (a : Ace) : Prop where
  noDefault : a.aceid ≠ -1
  range : Sec.toInt32 a.aceid = a.aceid ∧ a.aceid ≤ intMax
  uuid : ∀ u, a.subject = .uuid u → u.length = 16
  some : a.resources ≠ []
  apart : a.resources.Pairwise Apart
  valid : ∀ e ∈ a.resources, Valid e

/-- What holds of decoded ACEs. -/
structure DecOk (s : Subject) (k : Int) : Prop where
  range : Sec.toInt32 k = k ∧ k ≤ intMax
  uuid : ∀ u, s = .uuid u → u.length = 16

theorem toInt32_idem (i : Int) : Sec.toInt32 (Sec.toInt32 i) = Sec.toInt32 i := by
  simp [Sec.toInt32]

theorem toInt32_le (i : Int) : Sec.toInt32 i ≤ intMax := by
  have := BitVec.toInt_lt (x := BitVec.ofInt 32 i)
  simp only [Sec.toInt32, intMax]
  omega

theorem decodeSubject_uuid (rep : Rep) (u : Id) (h : decodeSubject rep = .ok (some (.uuid u))) : u.length = 16 := by
  unfold decodeSubject at h
  cases hd : decodeSubjectProps rep {} with
  | none => rw [hd] at h; simp only [Out.ok.injEq, reduceCtorEq] at h
  | some d =>
    rw [hd] at h
    dsimp only at h
    cases hu : d.uuid with
    | some x =>
      rw [hu] at h
      dsimp only at h
      split at h
      · simp only [Out.ok.injEq, reduceCtorEq] at h
      · cases hp : Sec.parseUuid x with
        | ub => rw [hp] at h; cases h
        | ok o =>
          rw [hp] at h
          cases o with
          | none => simp only [Out.bind, Out.ok.injEq, reduceCtorEq] at h
          | some w =>
            simp only [Out.bind, Out.ok.injEq, Option.some.injEq, Subject.uuid.injEq] at h
            subst h
            exact Sec.parseUuid_length _ _ hp
    | none =>
      rw [hu] at h
      dsimp only at h
      repeat' split at h
      all_goals simp only [Out.ok.injEq, Option.some.injEq, reduceCtorEq] at h

theorem decodeProp_ok (k : Bytes) (v : Val) (d d' : AceDec) (h : decodeProp k v d = .ok (some d'))
    (hd : DecOk d.subject d.aceid) : DecOk d'.subject d'.aceid := by
  unfold decodeProp at h
  cases v
  case int i =>
    dsimp only at h
    repeat' split at h
    all_goals simp only [Out.ok.injEq, Option.some.injEq, reduceCtorEq] at h
    · subst h; exact ⟨hd.range, hd.uuid⟩
    · subst h; exact ⟨⟨toInt32_idem i, toInt32_le i⟩, hd.uuid⟩
  case obj o =>
    dsimp only at h
    split at h
    · cases hs : decodeSubject o with
      | ub => rw [hs] at h; cases h
      | ok x =>
        rw [hs] at h
        cases x with
        | none => simp only [Out.bind, Out.ok.injEq, reduceCtorEq] at h
        | some s =>
          simp only [Out.bind, Out.ok.injEq, Option.some.injEq] at h
          subst h
          exact ⟨hd.range, fun u hu => decodeSubject_uuid o u (by rw [hs]; dsimp only at hu; rw [hu])⟩
    · simp only [Out.ok.injEq, reduceCtorEq] at h
  all_goals
    dsimp only at h
    repeat' split at h
    all_goals simp only [Out.ok.injEq, Option.some.injEq, reduceCtorEq] at h
    all_goals try (subst h; exact ⟨hd.range, hd.uuid⟩)

theorem decodeAce_ok : ∀ (item : Rep) (d d' : AceDec), decodeAce item d = .ok (some d') → DecOk d.subject d.aceid →
    DecOk d'.subject d'.aceid := by
  intro item
  induction item with
  | nil => intro d d' h hd; simp only [decodeAce, Out.ok.injEq, Option.some.injEq] at h; subst h; exact hd
  | cons kv r ih =>
    intro d d' h hd
    obtain ⟨k, v⟩ := kv
    rw [decodeAce] at h
    cases hp : decodeProp k v d with
    | ub => rw [hp] at h; cases h
    | ok o =>
      rw [hp] at h
      cases o with
      | none => simp only [Out.bind, Out.ok.injEq, reduceCtorEq] at h
      | some d1 => rw [Out.bind] at h; exact ih _ _ h (decodeProp_ok _ _ _ _ hp hd)

theorem init_ok : DecOk AceDec.init.subject AceDec.init.aceid :=
  ⟨by decide, by intro u h; simp only [AceDec.init, Subject.uuid.injEq] at h; subst h; rfl⟩

theorem getOrAddRes_made (a a' : Ace) (href : Option Bytes) (w : Wc) (c : Bool)
    (h : getOrAddRes a href w = .ok (some (a', c))) (h1 : a.aceid ≠ -1) (h2 : Sec.toInt32 a.aceid = a.aceid ∧ a.aceid ≤ intMax)
    (h3 : ∀ u, a.subject = .uuid u → u.length = 16) (h4 : a.resources.Pairwise Apart) (h5 : ∀ e ∈ a.resources, Valid e) :
    Made a' := by
  obtain ⟨hs, hr⟩ := getOrAddRes_some _ _ _ _ _ h
  rcases hr with ⟨-, rfl, e, he, -⟩ | ⟨-, hr, hn⟩
  · exact ⟨h1, h2, h3, (by intro hh; rw [hh] at he; cases he), h4, h5⟩
  · refine ⟨by rw [hs.1]; exact h1, by rw [hs.1]; exact h2, by rw [hs.2.1]; exact h3, by rw [hr]; simp, ?_, ?_⟩
    · rw [hr, List.pairwise_append]
      refine ⟨h4, by simp, ?_⟩
      intro x hx y hy
      simp only [List.mem_singleton] at hy
      subst hy
      exact hn x hx
    · rw [hr]
      intro e he
      rcases List.mem_append.1 he with he | he
      · exact h5 e he
      · simp only [List.mem_singleton] at he
        subst he
        unfold getOrAddRes at h
        split at h
        · rename_i hf
          simp only [Out.ok.injEq, Option.some.injEq, Prod.mk.injEq] at h
          obtain ⟨rfl, -⟩ := h
          exact absurd hr (by
            intro hh
            have := congrArg List.length hh
            simp at this)
        · split at h
          · simp only [Out.ok.injEq, reduceCtorEq] at h
          · rename_i hc
            split at h
            · refine ⟨fun _ hw => hc ⟨hw, rfl⟩, by intro x hx; cases hx⟩
            · split at h
              · rename_i hh
                exact ⟨by intro hx; simp at hx, by intro x hx; simp only [Option.some.injEq] at hx; subst hx; exact hh⟩
              · cases h

theorem updateRes_made (f : Fresh) (l : List Ace) (s : Subject) (k : Int) (p : BitVec 16) (t : Option Bytes)
    (href : Option Bytes) (w : Wc) (u : Upd) (h : updateRes f l s k p t href w = .ok u)
    (hd : DecOk s k) (hl : ∀ a ∈ l, Made a) : ∀ a ∈ u.aces, Made a := by
  rw [updateRes] at h
  generalize hid : (if k = -1 then f.id l else some k) = id at h
  split at h
  · rename_i pre a post hf
    obtain ⟨rfl, ha, hpre⟩ := findSplit_some _ _ _ _ _ hf
    split at h
    · cases h
    · rename_i a' c hg
      simp only [Out.ok.injEq] at h
      subst h
      have hm := hl a (by simp)
      have := getOrAddRes_made _ _ _ _ _ hg hm.noDefault hm.range hm.uuid hm.apart hm.valid
      intro x hx
      simp only [List.mem_append, List.mem_cons] at hx
      rcases hx with hx | rfl | hx
      · exact hl x (by simp [hx])
      · exact this
      · exact hl x (by simp [hx])
    · simp only [Out.ok.injEq] at h
      subst h
      intro x hx
      exact hl x (by simp only [List.mem_append, List.mem_cons] at hx ⊢; rcases hx with h | h <;> simp [h])
  · cases id with
    | none => cases h
    | some id =>
      dsimp only at h
      have hids : id ≠ -1 ∧ Sec.toInt32 id = id ∧ id ≤ intMax := by
        by_cases hk : k = -1
        · rw [if_pos hk] at hid
          have := fresh_spec f l id hid
          refine ⟨by omega, ?_, this.2.2⟩
          obtain ⟨n, rfl⟩ := Int.eq_ofNat_of_zero_le this.2.1
          exact Sec.toInt32_small n (by simp only [intMax] at this ⊢; omega)
        · rw [if_neg hk, Option.some.injEq] at hid
          subst hid
          exact ⟨hk, hd.range⟩
      split at h
      · cases h
      · rename_i a' c hg
        simp only [Out.ok.injEq] at h
        subst h
        have := getOrAddRes_made _ _ _ _ _ hg hids.1 hids.2 hd.uuid List.Pairwise.nil (by simp)
        intro x hx
        simp only [List.mem_append, List.mem_singleton] at hx
        rcases hx with hx | rfl
        · exact hl x hx
        · exact this
      · simp only [Out.ok.injEq] at h
        subst h
        exact hl

theorem decodeResources_made (f : Fresh) (d : AceDec) (hd : DecOk d.subject d.aceid) :
    ∀ (rs : List Rep) (last : Option Int) (l : List Ace) (x : ResLoop),
    decodeResources f d rs last l = .ok x → (∀ a ∈ l, Made a) → ∀ a ∈ x.aces, Made a := by
  intro rs
  induction rs with
  | nil => intro last l x h hl; simp only [decodeResources, Out.ok.injEq] at h; subst h; exact hl
  | cons r rs ih =>
    intro last l x h hl
    rw [decodeResources] at h
    split at h
    · simp only [Out.ok.injEq] at h; subst h; exact hl
    · rename_i e he
      cases hu : updateRes f l d.subject d.aceid d.permission d.tag e.href e.wc with
      | ub => rw [hu] at h; cases h
      | ok u =>
        rw [hu, Out.bind] at h
        exact ih _ _ _ h (updateRes_made _ _ _ _ _ _ _ _ _ hu hd hl)

theorem removeByAceid_mem (k : Int) (l : List Ace) : ∀ a ∈ (removeByAceid k l).2, a ∈ l := by
  rw [removeByAceid]
  split
  · rename_i pre a post hf
    obtain ⟨rfl, -, -⟩ := findSplit_some _ _ _ _ _ hf
    intro x hx
    simp only [List.mem_append, List.mem_cons] at hx ⊢
    rcases hx with h | h <;> simp [h]
  · exact fun a h => h

theorem decodeAceItem_made (f : Fresh) (cb : Bool) (item : Rep) (l : List Ace) (x : Bool × List Ace)
    (h : decodeAceItem f cb item l = .ok x) (hl : ∀ a ∈ l, Made a) : ∀ a ∈ x.2, Made a := by
  rw [decodeAceItem] at h
  cases hd : decodeAce item AceDec.init with
  | ub => rw [hd] at h; cases h
  | ok o =>
    rw [hd, Out.bind] at h
    cases o with
    | none => simp only [Out.ok.injEq] at h; subst h; exact hl
    | some d =>
      dsimp only at h
      generalize hl' : (if d.aceid ≠ -1 ∧ uniqueAceid d.aceid l = false then (removeByAceid d.aceid l).2 else l) = l' at h
      have hm : ∀ a ∈ l', Made a := by
        rw [← hl']; split
        · exact fun a ha => hl a (removeByAceid_mem _ _ a ha)
        · exact hl
      cases hr : decodeResources f d d.resources none l' with
      | ub => rw [hr] at h; cases h
      | ok y =>
        rw [hr, Out.bind] at h
        have hy := decodeResources_made f d (decodeAce_ok _ _ _ hd init_ok) _ _ _ _ hr hm
        repeat' split at h
        all_goals try cases h
        all_goals exact hy

theorem decodeAces_made (f : Fresh) (cb : Bool) : ∀ (items : List Rep) (l : List Ace) (x : Bool × List Ace),
    decodeAces f cb items l = .ok x → (∀ a ∈ l, Made a) → ∀ a ∈ x.2, Made a := by
  intro items
  induction items with
  | nil => intro l x h hl; simp only [decodeAces, Out.ok.injEq] at h; subst h; exact hl
  | cons r rs ih =>
    intro l x h hl
    rw [decodeAces] at h
    cases hd : decodeAceItem f cb r l with
    | ub => rw [hd] at h; cases h
    | ok y =>
      rw [hd, Out.bind] at h
      have hy := decodeAceItem_made _ _ _ _ _ hd hl
      split at h
      · exact ih _ _ h hy
      · simp only [Out.ok.injEq] at h; subst h; exact hy

theorem applyAcl_made (f : Fresh) (cb : Bool) : ∀ (rep : Rep) (st : AclState) (x : Bool × AclState),
    applyAcl f cb rep st = .ok x → st.owner.length = 16 → (∀ a ∈ st.aces, Made a) →
    x.2.owner.length = 16 ∧ ∀ a ∈ x.2.aces, Made a := by
  intro rep
  induction rep with
  | nil => intro st x h ho hl; simp only [applyAcl, Out.ok.injEq] at h; subst h; exact ⟨ho, hl⟩
  | cons kv r ih =>
    intro st x h ho hl
    obtain ⟨k, v⟩ := kv
    unfold applyAcl at h
    cases v
    case str s =>
      dsimp only at h
      split at h
      · cases hs : Sec.strToUuid st.owner s with
        | ub => rw [hs] at h; cases h
        | ok u => rw [hs, Out.bind] at h; exact ih _ x h (Sec.strToUuid_length _ _ _ ho hs) hl
      · exact ih _ x h ho hl
    case objs l =>
      dsimp only at h
      cases hs : decodeAces f cb l st.aces with
      | ub => rw [hs] at h; cases h
      | ok y =>
        rw [hs, Out.bind] at h
        have hy := decodeAces_made _ _ _ _ _ hs hl
        split at h
        · exact ih _ x h ho hy
        · simp only [Out.ok.injEq] at h; subst h; exact ⟨ho, hy⟩
    all_goals exact ih _ x h ho hl

/-- UUIDs passed by the callers of the update function have 16 bytes. -/
def AclOp.Typed : AclOp → Prop
  | .update _ s _ _ _ _ => ∀ u, s = .uuid u → u.length = 16
  | _ => True

theorem exec_made (o : AclOp) (st st' : AclState) (h : o.exec st = .ok st') (ht : o.Typed)
    (hi : st.owner.length = 16 ∧ ∀ a ∈ st.aces, Made a) : st'.owner.length = 16 ∧ ∀ a ∈ st'.aces, Made a := by
  cases o with
  | decode f dos fs cb rep =>
    simp only [AclOp.exec] at h
    rw [decodeAcl] at h
    split at h
    · cases ha : applyAcl f cb rep st with
      | ub => rw [ha] at h; cases h
      | ok x =>
        rw [ha] at h
        simp only [Out.bind, Out.ok.injEq] at h
        subst h
        exact applyAcl_made _ _ _ _ _ ha hi.1 hi.2
    · simp only [Out.bind, Out.ok.injEq] at h
      subst h; exact hi
  | update f s p t hr w =>
    simp only [AclOp.exec] at h
    cases hu : updateRes f st.aces s (-1) p t hr w with
    | ub => rw [hu] at h; cases h
    | ok u =>
      rw [hu] at h
      simp only [Out.bind, Out.ok.injEq] at h
      subst h
      exact ⟨hi.1, updateRes_made _ _ _ _ _ _ _ _ _ hu ⟨by decide, ht⟩ hi.2⟩
  | delete dos q =>
    simp only [AclOp.exec, Out.ok.injEq] at h
    subst h
    unfold deleteAcl
    split
    · exact hi
    · split
      · exact ⟨hi.1, by simp⟩
      · dsimp only
        split
        · exact ⟨hi.1, fun a ha => hi.2 a (removeByAceid_mem _ _ a ha)⟩
        · exact hi
  | clear f =>
    simp only [AclOp.exec, Out.ok.injEq] at h
    subst h
    exact ⟨hi.1, fun a ha => hi.2 a (List.mem_filter.1 ha).1⟩
  | default =>
    simp only [AclOp.exec, Out.ok.injEq] at h
    subst h
    exact ⟨rfl, by simp [defaultAcl]⟩

/-- Every reachable list is made of such ACEs. -/
theorem reachable_made (ops : List AclOp) : ∀ (st st' : AclState), (∀ o ∈ ops, o.Typed) →
    (st.owner.length = 16 ∧ ∀ a ∈ st.aces, Made a) → runOps ops st = .ok st' →
    st'.owner.length = 16 ∧ ∀ a ∈ st'.aces, Made a := by
  induction ops with
  | nil => intro st st' _ hi h; simp only [runOps, Out.ok.injEq] at h; subst h; exact hi
  | cons o ops ih =>
    intro st st' ht hi h
    rw [runOps] at h
    cases ho : o.exec st with
    | ub => rw [ho] at h; cases h
    | ok s =>
      rw [ho, Out.bind] at h
      exact ih s st' (fun x hx => ht x (List.mem_cons_of_mem _ hx)) (exec_made o st s ho (ht o (by simp)) hi) h

/-! ## Reloading -/

theorem decodeSubject_encode (s : Subject) (hu : ∀ u, s = .uuid u → u.length = 16) :
    decodeSubject (encodeSubject s) = .ok (some s) := by
  cases s with
  | uuid u =>
    unfold decodeSubject
    have : decodeSubjectProps (encodeSubject (.uuid u)) {} = some ⟨some (Sec.uuidText u), none, none, none⟩ := by
      rw [encodeSubject]
      simp only [decodeSubjectProps, if_true]
    rw [this]
    simp only [Option.isSome_none, Bool.or_self, Bool.false_eq_true, if_false]
    rw [Sec.parseUuid_text u (hu u rfl)]
    rfl
  | role r a =>
    cases a with
    | nil => rfl
    | cons c a => rfl
  | conn c => cases c <;> rfl

/-- An entry that is stored as it is: not both a name and a wildcard. -/
def Plain (e : Entry) : Prop := e.href = none ∨ e.wc = .no

theorem decodeResource_encode (e : Entry) (hv : Valid e) (hp : Plain e) :
    decodeResource (encodeEntry e) ⟨none, .no⟩ = some e := by
  obtain ⟨href, wc⟩ := e
  cases href with
  | none =>
    cases wc with
    | no => exact absurd rfl (hv.1 rfl)
    | all => rfl
    | secured => rfl
    | pub => rfl
  | some h =>
    rcases hp with hp | hp
    · cases hp
    · dsimp only at hp
      subst hp
      cases h with
      | nil => have := hv.2 [] rfl; cases this
      | cons c h => rfl

/-- The result of decoding what was encoded. -/
def decOf (a : Ace) : AceDec := ⟨a.subject, a.aceid, a.permission, a.tag, a.resources.map encodeEntry⟩

theorem decodeAce_encode (a : Ace) (hm : Made a) (ht : a.tag ≠ some []) :
    decodeAce (encodeAce a) AceDec.init = .ok (some (decOf a)) := by
  have h1 : decodeProp (b "subject") (.obj (encodeSubject a.subject)) AceDec.init =
      .ok (some { AceDec.init with subject := a.subject }) := by
    simp only [decodeProp, if_true]
    rw [decodeSubject_encode _ hm.uuid]
    rfl
  have hr : a.resources.isEmpty = false := by
    cases hx : a.resources with
    | nil => exact absurd hx hm.some
    | cons _ _ => rfl
  have h3 : ∀ d, decodeProp (b "permission") (.int a.permission.toNat) d = .ok (some { d with permission := a.permission }) := by
    intro d
    have hp : ¬ (a.permission.toNat : Int) > 65535 := by have := a.permission.isLt; omega
    simp only [decodeProp, if_true, if_neg hp]
    rw [BitVec.ofInt_natCast, BitVec.ofNat_toNat]
    rfl
  have h4 : ∀ d, decodeProp (b "aceid") (.int a.aceid) d = .ok (some { d with aceid := a.aceid }) := by
    intro d
    have hp : ¬ a.aceid > intMax := by have := hm.range.2; omega
    have hne : ¬ (b "aceid" = b "permission") := by decide
    simp only [decodeProp, if_neg hne, if_true, if_neg hp, hm.range.1]
  rw [encodeAce, hr]
  simp only [Bool.false_eq_true, if_false, List.cons_append, List.nil_append]
  rw [decodeAce, h1]
  simp only [Out.bind]
  rw [decodeAce]
  have h2 : ∀ d, decodeProp (b "resources") (.objs (a.resources.map encodeEntry)) d =
      .ok (some { d with resources := a.resources.map encodeEntry }) := by
    intro d; simp only [decodeProp, if_true]
  rw [h2]
  simp only [Out.bind]
  rw [decodeAce, h3]
  simp only [Out.bind]
  rw [decodeAce, h4]
  simp only [Out.bind]
  cases htag : a.tag with
  | none => simp [decodeAce, decOf, AceDec.init, htag]
  | some t =>
    cases t with
    | nil => exact absurd htag ht
    | cons c t =>
      dsimp only
      rw [decodeAce]
      have h5 : ∀ d, decodeProp (b "tag") (.str (c :: t)) d = .ok (some { d with tag := some (c :: t) }) := by
        intro d; simp only [decodeProp, if_true]
      rw [h5]
      simp [Out.bind, decodeAce, decOf, htag]

theorem decodeAces_encode (f : Fresh) (cb : Bool) : ∀ (l acc : List Ace), (ids (acc ++ l)).Nodup →
    (∀ a ∈ l, Made a ∧ a.tag ≠ some [] ∧ ∀ e ∈ a.resources, Plain e) →
    decodeAces f cb (l.map encodeAce) acc = .ok (true, acc ++ l) := by
  intro l
  induction l with
  | nil => intro acc _ _; simp [decodeAces]
  | cons a l ih =>
    intro acc hn hl
    obtain ⟨hm, ht, hp⟩ := hl a (by simp)
    rw [List.map_cons, decodeAces]
    have hn1 : (ids acc).Nodup := hn.sublist ((List.sublist_append_left acc _).map _)
    rw [replace_exact f cb (encodeAce a) acc (decOf a) a.resources hn1 (decodeAce_encode a hm ht) hm.noDefault
      (by
        simp only [decOf, List.map_map]
        refine List.map_congr_left (fun e he => ?_)
        exact decodeResource_encode e (hm.valid e he) (hp e he))
      hm.valid hm.apart hm.some]
    simp only [Out.bind, if_true]
    have hf : acc.filter (fun x => decide (x.aceid ≠ (decOf a).aceid)) = acc := by
      rw [List.filter_eq_self]
      intro x hx
      simp only [ids, List.map_append, List.map_cons] at hn
      rw [List.nodup_append] at hn
      have := hn.2.2 x.aceid (List.mem_map_of_mem hx) a.aceid (by simp)
      exact decide_eq_true this
    have ha : (decOf a).ace a.resources = a := rfl
    rw [hf, ha, ih (acc ++ [a]) (by simpa using hn) (fun x hx => hl x (List.mem_cons_of_mem _ hx))]
    simp

/-- The properties of the baseline interface are neither the owner nor arrays of
objects. -/
def Baseline (base : Rep) : Prop := ∀ kv ∈ base, kv.1 ≠ b "rowneruuid" ∧ ∀ l, kv.2 ≠ Val.objs l

theorem applyAcl_base (f : Fresh) (cb : Bool) (r : Rep) (st : AclState) : ∀ base, Baseline base →
    applyAcl f cb (base ++ r) st = applyAcl f cb r st := by
  intro base
  induction base with
  | nil => intro _; rfl
  | cons kv base ih =>
    intro hb
    obtain ⟨k, v⟩ := kv
    have h := hb (k, v) (by simp)
    have ih := ih (fun x hx => hb x (List.mem_cons_of_mem _ hx))
    rw [List.cons_append]
    conv => lhs; unfold applyAcl
    cases v
    case str s => dsimp only; rw [if_neg h.1]; exact ih
    case objs l => exact absurd rfl (h.2 l)
    all_goals exact ih

theorem guardAcl_storage (dos : Dos) (rep : Rep) : guardAcl dos true rep = true := by
  cases h : guardAcl dos true rep with
  | true => rfl
  | false => rw [guardAcl_iff] at h; cases h.1

/-- C51. Loading the stored list gives the list, if no entry has both a name and a
wildcard (and no tag is empty): for every list that any history of operations
leads to. Missing: entries with both, see `reload_widens_false`. -/
theorem reload_partial (f : Fresh) (dos : Dos) (cb : Bool) (base : Rep) (ops : List AclOp) (st : AclState)
    (hb : Baseline base) (ht : ∀ o ∈ ops, o.Typed) (hr : runOps ops defaultAcl = .ok st)
    (hp : ∀ a ∈ st.aces, a.tag ≠ some [] ∧ ∀ e ∈ a.resources, Plain e) :
    decodeAcl f dos true cb (encodeAcl base st) defaultAcl = .ok (true, st) := by
  have hn := aceids_unique_from_default ops st hr
  obtain ⟨ho, hm⟩ := reachable_made ops defaultAcl st ht ⟨rfl, by simp [defaultAcl]⟩ hr
  rw [decodeAcl, guardAcl_storage, if_pos rfl, encodeAcl, applyAcl_base _ _ _ _ _ hb]
  have hown : ∀ l, applyAcl f cb [(b "rowneruuid", .str (Sec.uuidText st.owner))] ⟨l, nilId⟩ = .ok (true, ⟨l, st.owner⟩) := by
    intro l
    simp only [applyAcl, if_true]
    rw [Sec.strToUuid_text _ _ ho]
    rfl
  cases hl : st.aces with
  | nil =>
    simp only [List.isEmpty_nil, if_true]
    unfold applyAcl
    rw [show defaultAcl = ⟨[], nilId⟩ from rfl, hown]
    cases st; simp_all
  | cons a l =>
    simp only [List.isEmpty_cons, Bool.false_eq_true, if_false]
    unfold applyAcl
    have := decodeAces_encode f cb (a :: l) [] (by rw [← hl]; exact hn)
      (by rw [← hl]; exact fun x hx => ⟨hm x hx, hp x hx⟩)
    rw [show (defaultAcl).aces = [] from rfl, this]
    simp only [Out.bind, if_true, List.nil_append]
    rw [show ({ aces := a :: l, owner := defaultAcl.owner } : AclState) = ⟨a :: l, nilId⟩ from rfl, hown]
    rw [← hl]

example (f : Fresh) : decodeAcl f .rfnop true false
    (encodeAcl [(b "rt", .strs [b "oic.r.acl2"])] ⟨[⟨7, .uuid nilId, 0, none, [⟨none, .secured⟩]⟩], nilId⟩) defaultAcl =
    .ok (true, ⟨[⟨7, .uuid nilId, 0, none, [⟨none, .secured⟩]⟩], nilId⟩) :=
  reload_partial f .rfnop false _ history _ (by intro kv h; simp only [List.mem_singleton] at h; subst h; exact ⟨by decide, by intro l h; cases h⟩)
    (by
      intro o ho
      simp only [history, List.mem_cons, List.not_mem_nil, or_false] at ho
      rcases ho with rfl | rfl | rfl | rfl
      · intro u h; cases h
      all_goals trivial)
    rfl
    (by
      intro a ha
      simp only [List.mem_singleton] at ha
      subst ha
      exact ⟨by decide, by intro e he; simp only [List.mem_singleton] at he; subst he; exact .inl rfl⟩)

/-- C51 fails for an entry with a name and a wildcard: only the name is stored.
Before the restart a resource of that name is covered if it is discoverable; after
it, in any case. -/
theorem reload_widens_false (f : Fresh) : ∃ st st' : AclState, ∃ s r m,
    (∃ ops, (∀ o ∈ ops, o.Typed) ∧ runOps ops defaultAcl = .ok st) ∧
    decodeAcl f .rfnop true false (encodeAcl [] st) defaultAcl = .ok (true, st') ∧
    ¬ Spec.Grants st.aces s r m ∧ Spec.Grants st'.aces s r m := by
  refine ⟨⟨[⟨5, .conn .anonClear, 2, none, [⟨some (b "/a"), .secured⟩]⟩], nilId⟩,
    ⟨[⟨5, .conn .anonClear, 2, none, [⟨some (b "/a"), .no⟩]⟩], nilId⟩, .conn .anonClear,
    ⟨b "/a", false, false, true, false, false, false, 0⟩, .get,
    ⟨[.update (always 5 (by decide)) (.conn .anonClear) 2 none (some (b "/a")) .secured], ?_, rfl⟩, rfl, ?_, ?_⟩
  · intro o ho
    simp only [List.mem_singleton] at ho
    subst ho
    intro u h; cases h
  · rintro ⟨a, ha, -, ⟨e, he, hc⟩, -⟩
    simp only [List.mem_singleton] at ha
    subst ha
    simp only [List.mem_singleton] at he
    subst he
    have := hc.2.1 (by simp) rfl
    simp [Spec.WcCovers] at this
  · refine ⟨_, List.mem_singleton.2 rfl, rfl, ⟨_, List.mem_singleton.2 rfl, ?_, by simp, .inl ⟨b "/a", rfl, by decide⟩⟩, .inl (by decide)⟩
    rintro h ⟨h1, -⟩
    simp only [Option.some.injEq] at h1
    exact h1.symm

end Verif.Acl
