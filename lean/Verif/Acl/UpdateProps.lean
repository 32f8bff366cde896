import Verif.Acl.UpdateLemmas

/-! C29 and C30: changes of the access control list. -/

namespace Verif.Acl

open Verif.Rep (Bytes b Val Rep)

/-! ## C29: unique ids -/

theorem exec_unique (o : AclOp) (st st' : AclState) (h : o.exec st = .ok st') (hn : (st.aces.map Ace.aceid).Nodup) :
    (st'.aces.map Ace.aceid).Nodup := by
  cases o with
  | decode f dos fs cb rep =>
    simp only [AclOp.exec] at h
    rw [decodeAcl] at h
    split at h
    · cases ha : applyAcl f cb rep st with
      | ub => rw [ha] at h; cases h
      | ok x =>
        rw [ha] at h
        simp only [Out.bind, Out.ok.injEq] at h
        subst h
        exact applyAcl_inv _ _ _ _ _ ha hn
    · simp only [Out.bind, Out.ok.injEq] at h
      subst h; exact hn
  | update f s p t hr w =>
    simp only [AclOp.exec] at h
    cases hu : updateRes f st.aces s (-1) p t hr w with
    | ub => rw [hu] at h; cases h
    | ok u =>
      rw [hu] at h
      simp only [Out.bind, Out.ok.injEq] at h
      subst h
      exact (updateRes_inv _ _ _ _ _ _ _ _ _ hu hn (fun hk => absurd rfl hk)).1
  | delete dos q =>
    simp only [AclOp.exec, Out.ok.injEq] at h
    subst h
    unfold deleteAcl
    split
    · exact hn
    · split
      · exact List.nodup_nil
      · dsimp only
        split
        · rw [(removeByAceid_spec _ _ hn).1]
          exact nodup_filter _ _ hn
        · exact hn
  | clear f =>
    simp only [AclOp.exec, Out.ok.injEq] at h
    subst h
    exact nodup_filter _ _ hn
  | default =>
    simp only [AclOp.exec, Out.ok.injEq] at h
    subst h
    exact List.nodup_nil

/-- C29. After any history of updates, deletions and resets, whatever the payloads
and the device states, the ACEs have different ids. -/
theorem aceids_unique (ops : List AclOp) : ∀ (st st' : AclState), (st.aces.map Ace.aceid).Nodup →
    runOps ops st = .ok st' → (st'.aces.map Ace.aceid).Nodup := by
  induction ops with
  | nil => intro st st' hn h; simp only [runOps, Out.ok.injEq] at h; subst h; exact hn
  | cons o ops ih =>
    intro st st' hn h
    rw [runOps] at h
    cases ho : o.exec st with
    | ub => rw [ho] at h; cases h
    | ok s => rw [ho, Out.bind] at h; exact ih s st' (exec_unique o st s ho hn) h

/-- From the factory state: `Nodup` holds at the start. -/
theorem aceids_unique_from_default (ops : List AclOp) (st' : AclState) (h : runOps ops defaultAcl = .ok st') :
    (st'.aces.map Ace.aceid).Nodup := aceids_unique ops defaultAcl _ List.nodup_nil h

/-! ## C29: faithful updates -/

/-- An entry that can be added: it names something, and a name starts with a slash. -/
def Valid (e : Entry) : Prop := (e.href = none → e.wc ≠ .no) ∧ ∀ h, e.href = some h → h.head? = some 47

/-- The second entry says nothing that the look-up of the first finds. -/
def Apart (e e' : Entry) : Prop := entryMatches e'.href e'.wc.bits e = false

theorem getOrAddRes_add (a : Ace) (e : Entry) (hv : Valid e) (hn : ∀ x ∈ a.resources, Apart x e) :
    getOrAddRes a e.href e.wc = .ok (some ({ a with resources := a.resources ++ [e] }, true)) := by
  have hf : findResource e.href e.wc.bits a.resources = [] := (findResource_nil _ _ _).2 hn
  unfold getOrAddRes
  rw [hf]
  dsimp only
  cases hh : e.href with
  | none =>
    rw [if_neg (by intro h; exact hv.1 hh h.1)]
    have : e = ⟨none, e.wc⟩ := by cases e; simp_all
    rw [← this]
  | some h =>
    rw [if_neg (by simp)]
    dsimp only
    rw [if_pos (hv.2 h hh)]
    have : e = ⟨some h, e.wc⟩ := by cases e; simp_all
    rw [← this]

/-- The ACE of the payload with given entries. -/
def AceDec.ace (d : AceDec) (es : List Entry) : Ace := ⟨d.aceid, d.subject, d.permission, d.tag, es⟩

theorem selects_own (d : AceDec) (es : List Entry) : selects d.subject d.aceid d.permission d.tag (d.ace es) = true := by
  rw [selects_iff]
  exact ⟨.inr rfl, .inr rfl, rfl, by rw [← subjectMatches_iff]; exact subjectMatches_self _⟩

theorem not_selects (d : AceDec) (a : Ace) (hk : d.aceid ≠ -1) (ha : a.aceid ≠ d.aceid) :
    selects d.subject d.aceid d.permission d.tag a = false := by
  cases h : selects d.subject d.aceid d.permission d.tag a with
  | false => rfl
  | true =>
    rw [selects_iff] at h
    rcases h.1 with h | h
    · exact absurd h hk
    · exact absurd h ha

theorem decodeResources_exact (f : Fresh) (d : AceDec) (base : List Ace) (hk : d.aceid ≠ -1)
    (hb : ∀ a ∈ base, a.aceid ≠ d.aceid) : ∀ (es acc : List Entry) (rs : List Rep) (last : Option Int),
    rs.map (fun r => decodeResource r ⟨none, .no⟩) = es.map some → (∀ e ∈ es, Valid e) → (acc ++ es).Pairwise Apart →
    decodeResources f d rs last (if acc = [] then base else base ++ [d.ace acc]) =
      .ok ⟨true, if es = [] then last else some d.aceid, if acc ++ es = [] then base else base ++ [d.ace (acc ++ es)]⟩ := by
  intro es
  induction es with
  | nil =>
    intro acc rs last hm _ _
    have : rs = [] := by simpa using hm
    subst this
    simp [decodeResources]
  | cons e es ih =>
    intro acc rs last hm hv hp
    cases rs with
    | nil => simp at hm
    | cons r rs =>
      simp only [List.map_cons, List.cons.injEq] at hm
      rw [decodeResources, hm.1]
      dsimp only
      have hne : ∀ x ∈ acc, Apart x e := by
        intro x hx
        rw [List.pairwise_append] at hp
        exact hp.2.2 x hx e (by simp)
      have hu : updateRes f (if acc = [] then base else base ++ [d.ace acc]) d.subject d.aceid d.permission d.tag e.href e.wc =
          .ok ⟨some d.aceid, decide (acc = []), true, base ++ [d.ace (acc ++ [e])]⟩ := by
        by_cases ha : acc = []
        · subst ha
          rw [if_pos rfl, updateRes, (findSplit_none _ _).2 (fun a ha => not_selects d a hk (hb a ha))]
          dsimp only
          rw [if_neg hk]
          dsimp only
          rw [getOrAddRes_add ⟨d.aceid, d.subject, d.permission, d.tag, []⟩ e (hv e (by simp)) (by simp)]
          rfl
        · rw [if_neg ha, updateRes,
            findSplit_append _ _ _ _ (fun a ha => not_selects d a hk (hb a ha)) (selects_own d acc)]
          dsimp only
          rw [getOrAddRes_add (d.ace acc) e (hv e (by simp)) hne]
          simp [ha, AceDec.ace]
      rw [hu]
      simp only [Out.bind]
      have := ih (acc ++ [e]) rs (some d.aceid) hm.2 (fun x hx => hv x (List.mem_cons_of_mem _ hx)) (by simpa using hp)
      simp only [List.append_eq_nil_iff, List.cons_ne_self, and_false, if_false, reduceCtorEq, List.append_assoc, List.singleton_append] at this
      rw [this]
      simp only [reduceCtorEq, if_false, List.append_eq_nil_iff, and_false]
      split <;> rfl

/-- C29. A payload ACE with an aceid whose entries are valid and do not overlap
replaces the ACE of that id by exactly the given subject, permission, tag and
entries, and leaves all other ACEs as they are. -/
theorem replace_exact (f : Fresh) (cb : Bool) (item : Rep) (l : List Ace) (d : AceDec) (es : List Entry)
    (hn : (l.map Ace.aceid).Nodup) (hd : decodeAce item AceDec.init = .ok (some d)) (hk : d.aceid ≠ -1)
    (hm : d.resources.map (fun r => decodeResource r ⟨none, .no⟩) = es.map some) (hv : ∀ e ∈ es, Valid e)
    (hp : es.Pairwise Apart) (hne : es ≠ []) :
    decodeAceItem f cb item l = .ok (true, l.filter (fun a => decide (a.aceid ≠ d.aceid)) ++ [d.ace es]) := by
  rw [decodeAceItem, hd]
  simp only [Out.bind]
  rw [replaced_list _ _ hn, if_neg hk]
  have hb : ∀ a ∈ l.filter (fun a => decide (a.aceid ≠ d.aceid)), a.aceid ≠ d.aceid := by
    intro a ha; simpa using (List.mem_filter.1 ha).2
  have := decodeResources_exact f d _ hk hb es [] d.resources none hm hv (by simpa using hp)
  rw [if_pos rfl] at this
  rw [this]
  simp only [List.nil_append, if_neg hne, Bool.not_true, Bool.false_eq_true, if_false]
  rw [if_neg]
  intro h
  simp only [Bool.and_eq_true, uniqueAceid_iff] at h
  exact h.2 (d.ace es) (by simp) rfl

/-- C29 and C27: the access that the list gives after such an update is what the
other ACEs give, and what the update says. -/
theorem replace_grants (f : Fresh) (cb : Bool) (item : Rep) (l : List Ace) (d : AceDec) (es : List Entry)
    (hn : (l.map Ace.aceid).Nodup) (hd : decodeAce item AceDec.init = .ok (some d)) (hk : d.aceid ≠ -1)
    (hm : d.resources.map (fun r => decodeResource r ⟨none, .no⟩) = es.map some) (hv : ∀ e ∈ es, Valid e)
    (hp : es.Pairwise Apart) (hne : es ≠ []) :
    ∃ l', decodeAceItem f cb item l = .ok (true, l') ∧ ∀ s r m, Spec.Grants l' s r m ↔
      (Spec.Grants (l.filter (fun a => decide (a.aceid ≠ d.aceid))) s r m ∨
       (Spec.IsSubject d.subject s ∧ (∃ e ∈ es, Spec.Covers e r) ∧ Spec.Permits m d.permission)) := by
  refine ⟨_, replace_exact f cb item l d es hn hd hk hm hv hp hne, ?_⟩
  intro s r m
  constructor
  · rintro ⟨a, ha, h⟩
    rcases List.mem_append.1 ha with ha | ha
    · exact .inl ⟨a, ha, h⟩
    · simp only [List.mem_singleton] at ha; subst ha; exact .inr h
  · rintro (⟨a, ha, h⟩ | h)
    · exact ⟨a, List.mem_append.2 (.inl ha), h⟩
    · exact ⟨d.ace es, by simp, h⟩

/-- C29 for the update by subject (without aceid): if it succeeds, an ACE of the
subject with the permission and tag has an entry for the resource, no other ACE
has changed, and no entry is lost. -/
theorem update_adds (f : Fresh) (l : List Ace) (s : Subject) (p : BitVec 16) (t : Option Bytes) (href : Option Bytes)
    (w : Wc) (u : Upd) (i : Int) (hp : p ≠ 0) (h : updateRes f l s (-1) p t href w = .ok u) (hi : u.ace = some i) :
    (∃ a ∈ u.aces, a.aceid = i ∧ a.permission = p ∧ a.tag = t ∧ Spec.IsSubject a.subject s ∧
      ∃ e ∈ a.resources, e = ⟨href, w⟩ ∨ entryMatches href w.bits e = true) ∧
    (∀ a ∈ l, ∃ a' ∈ u.aces, SameHead a a' ∧ ∀ e ∈ a.resources, e ∈ a'.resources) ∧
    (∀ a' ∈ u.aces, a'.aceid ≠ i → a' ∈ l) := by
  rw [updateRes] at h
  generalize hid : (if (-1 : Int) = -1 then f.id l else some (-1)) = id at h
  split at h
  · rename_i pre a post hf
    obtain ⟨rfl, ha, -⟩ := findSplit_some _ _ _ _ _ hf
    rw [selects_iff] at ha
    split at h
    · cases h
    · rename_i a' c hg
      simp only [Out.ok.injEq] at h
      subst h
      simp only [Option.some.injEq] at hi
      obtain ⟨hs, hr⟩ := getOrAddRes_some _ _ _ _ _ hg
      have hres : (∀ e ∈ a.resources, e ∈ a'.resources) ∧
          ∃ e ∈ a'.resources, e = ⟨href, w⟩ ∨ entryMatches href w.bits e = true := by
        rcases hr with ⟨-, rfl, e, he, hm⟩ | ⟨-, hr, -⟩
        · exact ⟨fun _ h => h, e, he, .inr hm⟩
        · rw [hr]; exact ⟨fun e he => by simp [he], ⟨href, w⟩, by simp, .inl rfl⟩
      refine ⟨⟨a', by simp, by rw [hs.1]; exact hi, ?_, by rw [hs.2.2.2]; exact ha.2.2.1, by rw [hs.2.1]; exact ha.2.2.2, hres.2⟩, ?_, ?_⟩
      · rw [hs.2.2.1]
        rcases ha.2.1 with h | h
        · exact absurd h hp
        · exact h
      · intro x hx
        simp only [List.mem_append, List.mem_cons] at hx
        rcases hx with hx | rfl | hx
        · exact ⟨x, by simp [hx], ⟨rfl, rfl, rfl, rfl⟩, fun _ h => h⟩
        · exact ⟨a', by simp, hs, hres.1⟩
        · exact ⟨x, by simp [hx], ⟨rfl, rfl, rfl, rfl⟩, fun _ h => h⟩
      · intro x hx hne
        simp only [List.mem_append, List.mem_cons] at hx ⊢
        rcases hx with hx | rfl | hx
        · exact .inl hx
        · exact absurd (hs.1.trans hi) hne
        · exact .inr (.inr hx)
    · simp only [Out.ok.injEq] at h
      subst h
      cases hi
  · cases id with
    | none => cases h
    | some id =>
    dsimp only at h
    split at h
    · cases h
    · rename_i a' c hg
      simp only [Out.ok.injEq] at h
      subst h
      simp only [Option.some.injEq] at hi
      obtain ⟨hs, hr⟩ := getOrAddRes_some _ _ _ _ _ hg
      refine ⟨⟨a', by simp, by rw [hs.1]; exact hi, by rw [hs.2.2.1], by rw [hs.2.2.2], ?_, ?_⟩, ?_, ?_⟩
      · rw [hs.2.1, ← subjectMatches_iff]; exact subjectMatches_self s
      · rcases hr with ⟨-, -, e, he, -⟩ | ⟨-, hr, -⟩
        · cases he
        · rw [hr]; exact ⟨⟨href, w⟩, by simp, .inl rfl⟩
      · intro x hx
        exact ⟨x, by simp [hx], ⟨rfl, rfl, rfl, rfl⟩, fun _ h => h⟩
      · intro x hx hne
        simp only [List.mem_append, List.mem_singleton] at hx
        rcases hx with hx | rfl
        · exact hx
        · exact absurd (hs.1.trans hi) hne
    · simp only [Out.ok.injEq] at h
      subst h
      cases hi

/-- C29: a deletion by id outside normal operation removes exactly the ACE of that
id; without id all; ids are taken modulo 2^32, and 0 cannot be deleted. -/
theorem delete_exact (dos : Dos) (q : Option (BitVec 64)) (st : AclState) (hn : (st.aces.map Ace.aceid).Nodup) :
    let st' := (deleteAcl dos q st).2
    st'.owner = st.owner ∧
    (dos = .rfnop → st' = st) ∧
    (dos ≠ .rfnop → q = none → st'.aces = []) ∧
    (dos ≠ .rfnop → ∀ k, q = some k → k.toNat ≤ intMax → 0 < k.toNat →
      st'.aces = st.aces.filter (fun a => decide (a.aceid ≠ (k.toNat : Int))) ∧
      ((deleteAcl dos q st).1 = true ↔ ∃ a ∈ st.aces, a.aceid = (k.toNat : Int))) := by
  dsimp only
  refine ⟨?_, ?_, ?_, ?_⟩
  · unfold deleteAcl
    repeat' split
    all_goals first | rfl | (dsimp only; split <;> rfl)
  · intro h; unfold deleteAcl; rw [if_pos h]
  · intro h h'; subst h'; unfold deleteAcl; rw [if_neg h]
  · intro h k hq hk h0
    subst hq
    have hb : Sec.toInt32 k.toNat = (k.toNat : Int) := Sec.toInt32_small _ hk
    unfold deleteAcl
    rw [if_neg h]
    dsimp only
    rw [hb, if_pos (by omega)]
    exact removeByAceid_spec _ _ hn

/-! ## C30 -/

theorem updateRes_others (f : Fresh) (l : List Ace) (s : Subject) (k : Int) (p : BitVec 16) (t : Option Bytes)
    (href : Option Bytes) (w : Wc) (u : Upd) (hk : k ≠ -1) (h : updateRes f l s k p t href w = .ok u) :
    u.aces.filter (fun a => decide (a.aceid ≠ k)) = l.filter (fun a => decide (a.aceid ≠ k)) := by
  rw [updateRes] at h
  generalize hid : (if k = -1 then f.id l else some k) = id at h
  rw [if_neg hk] at hid
  subst hid
  split at h
  · rename_i pre a post hf
    obtain ⟨rfl, ha, -⟩ := findSplit_some _ _ _ _ _ hf
    rw [selects_iff] at ha
    have hak : a.aceid = k := by
      rcases ha.1 with h | h
      · exact absurd h hk
      · exact h
    split at h
    · cases h
    · rename_i a' c hg
      simp only [Out.ok.injEq] at h
      subst h
      have hs := (getOrAddRes_some _ _ _ _ _ hg).1
      have : a'.aceid = k := hs.1.trans hak
      simp [List.filter_append, hak, this]
    · simp only [Out.ok.injEq] at h
      subst h
      simp [List.filter_append, hak]
  · dsimp only at h
    split at h
    · cases h
    · rename_i a' c hg
      simp only [Out.ok.injEq] at h
      subst h
      have hs := (getOrAddRes_some _ _ _ _ _ hg).1
      have : a'.aceid = k := hs.1
      simp [List.filter_append, this]
    · simp only [Out.ok.injEq] at h
      subst h
      rfl

theorem decodeResources_others (f : Fresh) (d : AceDec) (hk : d.aceid ≠ -1) :
    ∀ (rs : List Rep) (last : Option Int) (l : List Ace) (x : ResLoop), decodeResources f d rs last l = .ok x →
    x.aces.filter (fun a => decide (a.aceid ≠ d.aceid)) = l.filter (fun a => decide (a.aceid ≠ d.aceid)) := by
  intro rs
  induction rs with
  | nil => intro last l x h; simp only [decodeResources, Out.ok.injEq] at h; subst h; rfl
  | cons r rs ih =>
    intro last l x h
    rw [decodeResources] at h
    split at h
    · simp only [Out.ok.injEq] at h; subst h; rfl
    · rename_i e he
      cases hu : updateRes f l d.subject d.aceid d.permission d.tag e.href e.wc with
      | ub => rw [hu] at h; cases h
      | ok u =>
        rw [hu, Out.bind] at h
        rw [ih _ _ _ h, updateRes_others _ _ _ _ _ _ _ _ _ hk hu]

theorem decodeAceItem_others (f : Fresh) (cb : Bool) (item : Rep) (l : List Ace) (x : Bool × List Ace) (d : AceDec)
    (hd : decodeAce item AceDec.init = .ok (some d)) (hk : d.aceid ≠ -1) (hn : (ids l).Nodup)
    (h : decodeAceItem f cb item l = .ok x) :
    x.2.filter (fun a => decide (a.aceid ≠ d.aceid)) = l.filter (fun a => decide (a.aceid ≠ d.aceid)) := by
  rw [decodeAceItem, hd] at h
  simp only [Out.bind] at h
  rw [replaced_list _ _ hn, if_neg hk] at h
  cases hr : decodeResources f d d.resources none (l.filter (fun a => decide (a.aceid ≠ d.aceid))) with
  | ub => rw [hr] at h; cases h
  | ok y =>
    rw [hr] at h
    have hy := decodeResources_others f d hk _ _ _ _ hr
    rw [List.filter_filter] at hy
    simp only [Bool.and_self] at hy
    dsimp only at h
    repeat' split at h
    all_goals try cases h
    all_goals exact hy

/-- C30, for what the payload does not name: an update whose ACEs all carry aceids
leaves every other ACE as it was, whether the update succeeds or fails. -/
theorem others_untouched (f : Fresh) (cb : Bool) (K : List Int) : ∀ (items : List Rep) (l : List Ace) (x : Bool × List Ace),
    (ids l).Nodup → (∀ item ∈ items, ∀ d, decodeAce item AceDec.init = .ok (some d) → d.aceid ≠ -1 ∧ d.aceid ∈ K) →
    decodeAces f cb items l = .ok x →
    x.2.filter (fun a => decide (a.aceid ∉ K)) = l.filter (fun a => decide (a.aceid ∉ K)) := by
  intro items
  induction items with
  | nil => intro l x _ _ h; simp only [decodeAces, Out.ok.injEq] at h; subst h; rfl
  | cons r rs ih =>
    intro l x hn hK h
    rw [decodeAces] at h
    cases hd : decodeAceItem f cb r l with
    | ub => rw [hd] at h; cases h
    | ok y =>
      rw [hd, Out.bind] at h
      have hy : y.2.filter (fun a => decide (a.aceid ∉ K)) = l.filter (fun a => decide (a.aceid ∉ K)) := by
        cases hda : decodeAce r AceDec.init with
        | ub => rw [decodeAceItem, hda] at hd; cases hd
        | ok o =>
          cases o with
          | none =>
            rw [decodeAceItem, hda] at hd
            simp only [Out.bind, Out.ok.injEq] at hd
            subst hd; rfl
          | some d =>
            obtain ⟨hk, hkK⟩ := hK r (by simp) d hda
            have := decodeAceItem_others f cb r l y d hda hk hn hd
            have e : ∀ l : List Ace, l.filter (fun a => decide (a.aceid ∉ K)) =
                (l.filter (fun a => decide (a.aceid ≠ d.aceid))).filter (fun a => decide (a.aceid ∉ K)) := by
              intro l
              rw [List.filter_filter]
              refine List.filter_congr (fun a _ => ?_)
              by_cases ha : a.aceid = d.aceid
              · simp [ha, hkK]
              · simp [ha]
            rw [e y.2, this, ← e l]
      split at h
      · rw [ih _ _ (decodeAceItem_inv _ _ _ _ _ hd hn) (fun i hi => hK i (List.mem_cons_of_mem _ hi)) h, hy]
      · simp only [Out.ok.injEq] at h; subst h; exact hy

/-- The device state forbids the update: it changes owners in RFPRO or RFNOP, or
ACEs in RFNOP. -/
def Forbidden (dos : Dos) (rep : Rep) : Prop :=
  (∃ kv ∈ rep, (∃ s, kv.2 = Val.str s) ∧ kv.1 = b "rowneruuid" ∧ (dos = .rfnop ∨ dos = .rfpro)) ∨
  (∃ kv ∈ rep, (∃ l, kv.2 = Val.objs l) ∧ dos = .rfnop)

theorem guardAcl_iff (dos : Dos) (fs : Bool) (rep : Rep) :
    guardAcl dos fs rep = false ↔ fs = false ∧ Forbidden dos rep := by
  induction rep with
  | nil => simp [guardAcl, Forbidden]
  | cons kv r ih =>
    obtain ⟨k, v⟩ := kv
    have hskip : (∀ s, v ≠ Val.str s) → (∀ l, v ≠ Val.objs l) → (Forbidden dos ((k, v) :: r) ↔ Forbidden dos r) := by
      intro h1 h2
      simp only [Forbidden, List.mem_cons, exists_eq_or_imp]
      simp [h1, h2]
    unfold guardAcl
    cases v
    case str s =>
      dsimp only
      split
      · rename_i h
        obtain ⟨hk, hfs, hd⟩ := h
        refine ⟨fun _ => ⟨by simpa using hfs, .inl ⟨(k, .str s), by simp, ⟨s, rfl⟩, hk, hd⟩⟩, fun _ => rfl⟩
      · rename_i h
        rw [ih]
        cases fs with
        | true => simp
        | false =>
          simp only [true_and]
          constructor
          · rintro (⟨x, hx, h'⟩ | ⟨x, hx, h'⟩)
            · exact .inl ⟨x, by simp [hx], h'⟩
            · exact .inr ⟨x, by simp [hx], h'⟩
          · rintro (⟨x, hx, h1, h2, h3⟩ | ⟨x, hx, ⟨l, h1⟩, h2⟩)
            · rcases List.mem_cons.1 hx with rfl | hx
              · exact absurd ⟨h2, by simp, h3⟩ h
              · exact .inl ⟨x, hx, h1, h2, h3⟩
            · rcases List.mem_cons.1 hx with rfl | hx
              · cases h1
              · exact .inr ⟨x, hx, ⟨l, h1⟩, h2⟩
    case objs l =>
      dsimp only
      split
      · rename_i h
        refine ⟨fun _ => ⟨by simpa using h.1, .inr ⟨(k, .objs l), by simp, ⟨l, rfl⟩, h.2⟩⟩, fun _ => rfl⟩
      · rename_i h
        rw [ih]
        cases fs with
        | true => simp
        | false =>
          simp only [true_and]
          constructor
          · rintro (⟨x, hx, h'⟩ | ⟨x, hx, h'⟩)
            · exact .inl ⟨x, by simp [hx], h'⟩
            · exact .inr ⟨x, by simp [hx], h'⟩
          · rintro (⟨x, hx, ⟨s, h1⟩, h2, h3⟩ | ⟨x, hx, h1, h2⟩)
            · rcases List.mem_cons.1 hx with rfl | hx
              · cases h1
              · exact .inl ⟨x, hx, ⟨s, h1⟩, h2, h3⟩
            · rcases List.mem_cons.1 hx with rfl | hx
              · exact absurd ⟨by simp, h2⟩ h
              · exact .inr ⟨x, hx, h1, h2⟩
    all_goals
      dsimp only
      rw [ih, hskip (by intro s h; cases h) (by intro l h; cases h)]

/-- C30 as far as it holds: an update that the device state forbids, or whose first
ACE is malformed in its own properties, changes nothing. Missing: any other
failure leaves what was applied so far (`failed_update_false`,
`failed_update_loses_ace_false`). -/
theorem rejected_unchanged_partial (f : Fresh) (dos : Dos) (fs cb : Bool) (rep : Rep) (st : AclState) :
    (fs = false → Forbidden dos rep → decodeAcl f dos fs cb rep st = .ok (false, st)) ∧
    (∀ k item l, rep = [(k, Val.objs (item :: l))] → decodeAce item AceDec.init = .ok none →
      decodeAcl f dos fs cb rep st = .ok (false, st)) := by
  refine ⟨?_, ?_⟩
  · intro h1 h2
    rw [decodeAcl, if_neg]
    rw [(guardAcl_iff dos fs rep).2 ⟨h1, h2⟩]
    simp
  · intro k item l hr hd
    subst hr
    rw [decodeAcl]
    split
    · simp only [applyAcl, decodeAces, decodeAceItem, hd, Out.bind]
      rfl
    · rfl

/-! ## Examples -/

/-- A random generator that returns an even number below 2^32 (`Fresh` is
inhabited). -/
def always (k : Nat) (hk : 2 * k < 2 ^ 32) : Fresh where
  id aces := if uniqueAceid k aces then some (k : Int) else none
  random := by
    intro aces i h
    split at h
    · rename_i hu
      simp only [Option.some.injEq] at h
      subst h
      refine ⟨[BitVec.ofNat 32 (2 * k)], ?_⟩
      have : ((BitVec.ofNat 32 (2 * k)) >>> 1).toNat = k := by
        rw [BitVec.toNat_ushiftRight, Nat.shiftRight_eq_div_pow, BitVec.toNat_ofNat, Nat.mod_eq_of_lt hk]
        omega
      simp only [newAceid, this, hu, if_true]
    · cases h

/-- A history: two ACEs are entered, one is replaced, one deleted. -/
def history : List AclOp :=
  [.update (always 5 (by decide)) (.conn .anonClear) 2 none (some (b "/a")) .no,
   .decode (always 6 (by decide)) .rfpro false true [(b "aclist2", .objs [[(b "aceid", .int 7), (b "resources", .objs [[(b "wc", .str (b "*"))]])]])],
   .decode (always 6 (by decide)) .rfpro false true [(b "aclist2", .objs [[(b "aceid", .int 7), (b "resources", .objs [[(b "wc", .str (b "+"))]])]])],
   .delete .rfpro (some 5)]
example : runOps history defaultAcl = .ok ⟨[⟨7, .uuid nilId, 0, none, [⟨none, .secured⟩]⟩], nilId⟩ := rfl

/-- A list with the ACE 7. -/
def list7 : List Ace := [⟨7, .uuid alice7, 2, none, [⟨some (b "/a"), .no⟩]⟩]
where
  /-- A UUID. -/
  alice7 : Id := List.replicate 16 1

/-- The payload ACE 7 with permission 6 and two resources, for everyone on a
secured connection. -/
def item7 : Rep :=
  [(b "aceid", .int 7), (b "permission", .int 6), (b "subject", .obj [(b "conntype", .str (b "auth-crypt"))]),
   (b "resources", .objs [[(b "href", .str (b "/a"))], [(b "href", .str (b "/b"))]])]

/-- Its decoding. -/
def dec7 : AceDec := ⟨.conn .authCrypt, 7, 6, none, [[(b "href", .str (b "/a"))], [(b "href", .str (b "/b"))]]⟩
/-- Its entries. -/
def es7 : List Entry := [⟨some (b "/a"), .no⟩, ⟨some (b "/b"), .no⟩]

example (f : Fresh) : decodeAceItem f true item7 list7 = .ok (true, [⟨7, .conn .authCrypt, 6, none, es7⟩]) := by
  have := replace_exact f true item7 list7 dec7 es7 (by decide) (by rfl) (by decide) (by rfl)
    (by
      intro e he
      simp only [es7, List.mem_cons, List.not_mem_nil, or_false] at he
      rcases he with rfl | rfl
      · exact ⟨by simp, by intro h hh; simp only [Option.some.injEq] at hh; subst hh; decide⟩
      · exact ⟨by simp, by intro h hh; simp only [Option.some.injEq] at hh; subst hh; decide⟩)
    (by unfold es7 Apart; decide) (by decide)
  exact this
example : Forbidden .rfnop [(b "aclist2", .objs [item7])] := .inr ⟨(b "aclist2", .objs [item7]), by simp, ⟨_, rfl⟩, rfl⟩
example (f : Fresh) : ∃ u, updateRes f list7 (.uuid (List.replicate 16 1)) (-1) 2 none (some (b "/c")) .no = .ok u ∧ u.ace = some 7 :=
  ⟨_, rfl, rfl⟩

/-! ## What does not hold -/

/-- C30 fails: the owner is set although the update is rejected (state RFOTM). -/
theorem failed_update_false (f : Fresh) : ∃ st rep st', decodeAcl f .rfotm false false rep st = .ok (false, st') ∧
    st'.owner ≠ st.owner :=
  ⟨defaultAcl, [(b "rowneruuid", .str (b "*")), (b "aclist2", .objs [[(b "x", .int 1)]])],
    ⟨[], 42 :: List.replicate 15 0⟩, rfl, by decide⟩

/-- C30 fails: a rejected update of an ACE with a malformed resource loses the ACE. -/
theorem failed_update_loses_ace_false (f : Fresh) : ∃ rep, decodeAcl f .rfpro false false rep ⟨list7, nilId⟩ = .ok (false, ⟨[], nilId⟩) :=
  ⟨[(b "aclist2", .objs [[(b "aceid", .int 7), (b "resources", .objs [[(b "x", .int 1)]])]])], rfl⟩

/-- C29 fails: an update with permission 0 (no access) is entered in an ACE of the
subject with any permission, and grants that. -/
theorem permission_zero_false (f : Fresh) : ∃ item l', decodeAceItem f false item list7 = .ok (true, l') ∧
    (∃ d, decodeAce item AceDec.init = .ok (some d) ∧ d.permission = 0 ∧ d.resources = [[(b "href", .str (b "/secret"))]]) ∧
    Spec.Grants l' (.uuid (List.replicate 16 1)) ⟨b "/secret", false, false, true, true, true, false, 0⟩ .get := by
  refine ⟨[(b "permission", .int 0),
      (b "subject", .obj [(b "uuid", .str (b "01010101-0101-0101-0101-010101010101"))]),
      (b "resources", .objs [[(b "href", .str (b "/secret"))]])],
    [⟨7, .uuid (List.replicate 16 1), 2, none, [⟨some (b "/a"), .no⟩, ⟨some (b "/secret"), .no⟩]⟩], rfl, ⟨_, rfl, rfl, rfl⟩, ?_⟩
  refine ⟨_, List.mem_singleton.2 rfl, rfl, ⟨⟨some (b "/secret"), .no⟩, by simp, ?_⟩, .inl (by decide)⟩
  refine ⟨?_, by simp, .inl ⟨b "/secret", rfl, by decide⟩⟩
  rintro h ⟨h1, -⟩
  simp only [Option.some.injEq] at h1
  exact h1.symm

/-- C29 fails: a successful update that adds the wildcard for all discoverable
resources has no effect if an entry for one resource has the wildcard, too. -/
theorem lost_wildcard_false (f : Fresh) : ∃ item, decodeAceItem f false item [] =
    .ok (true, [⟨7, .uuid nilId, 2, none, [⟨some (b "/b"), .secured⟩]⟩]) ∧
    ∃ d, decodeAce item AceDec.init = .ok (some d) ∧
      d.resources.map (fun r => decodeResource r ⟨none, .no⟩) = [some ⟨some (b "/b"), .secured⟩, some ⟨none, .secured⟩] :=
  ⟨[(b "aceid", .int 7), (b "permission", .int 2),
    (b "resources", .objs [[(b "href", .str (b "/b")), (b "wc", .str (b "+"))], [(b "wc", .str (b "+"))]])], rfl, _, rfl, rfl⟩

/-- C29 fails: a successful update without aceid that has an entry without name and
wildcard deletes the existing ACE of the subject. -/
theorem empty_entry_deletes_false (f : Fresh) : ∃ item, decodeAceItem f false item list7 = .ok (true, []) :=
  ⟨[(b "permission", .int 2), (b "subject", .obj [(b "uuid", .str (b "01010101-0101-0101-0101-010101010101"))]),
    (b "resources", .objs [[]])], rfl⟩

/-- A negative permission is accepted and is all permissions. -/
theorem negative_permission_false : ∃ item d, decodeAce item AceDec.init = .ok (some d) ∧
    item = [(b "permission", .int (-1))] ∧ d.permission = 0xffff := ⟨_, _, rfl, rfl, rfl⟩

/-- A payload reaches a failing assertion: a name that does not start with a slash. -/
theorem href_without_slash_ub (f : Fresh) : ∃ rep, decodeAcl f .rfpro false false rep ⟨[], nilId⟩ = .ub :=
  ⟨[(b "aclist2", .objs [[(b "aceid", .int 7), (b "resources", .objs [[(b "href", .str (b "light"))]])]])], rfl⟩

/-- A callback is given a pointer to an ACE that was freed. -/
theorem dangling_callback_ub (f : Fresh) : ∃ rep, decodeAcl f .rfpro false true rep ⟨[], nilId⟩ = .ub :=
  ⟨[(b "aclist2", .objs [[(b "aceid", .int 7), (b "resources", .objs [[(b "href", .str (b "/a"))], []])]])], rfl⟩

/-- Deleting by an id beyond 32 bits deletes the ACE of another id; an ACE with id
0 cannot be deleted by id. -/
theorem delete_other_false :
    (deleteAcl .rfpro (some 4294967303) ⟨list7, nilId⟩).1 = true ∧
    ∀ l, deleteAcl .rfpro (some 0) ⟨l, nilId⟩ = (false, ⟨l, nilId⟩) := ⟨by decide, fun _ => rfl⟩

end Verif.Acl
