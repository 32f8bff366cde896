import Verif.Acl.Update
import Verif.Acl.Lemmas

namespace Verif.Acl

open Verif.Rep (Bytes b Val Rep)

theorem findSplit_some {α : Type} (p : α → Bool) : ∀ (l pre : List α) (a : α) (post : List α),
    findSplit p l = some (pre, a, post) → l = pre ++ a :: post ∧ p a = true ∧ ∀ x ∈ pre, p x = false := by
  intro l
  induction l with
  | nil => intro pre a post h; cases h
  | cons x l ih =>
    intro pre a post h
    rw [findSplit] at h
    split at h
    · rename_i hp
      simp only [Option.some.injEq, Prod.mk.injEq] at h
      obtain ⟨rfl, rfl, rfl⟩ := h
      exact ⟨rfl, hp, by simp⟩
    · rename_i hp
      cases hf : findSplit p l with
      | none => rw [hf] at h; cases h
      | some w =>
        obtain ⟨pre', a', post'⟩ := w
        rw [hf] at h
        simp only [Option.some.injEq, Prod.mk.injEq] at h
        obtain ⟨rfl, rfl, rfl⟩ := h
        have := ih _ _ _ hf
        refine ⟨by rw [this.1]; rfl, this.2.1, ?_⟩
        intro y hy
        rcases List.mem_cons.1 hy with rfl | hy
        · simpa using hp
        · exact this.2.2 y hy

theorem findSplit_none {α : Type} (p : α → Bool) : ∀ (l : List α), findSplit p l = none ↔ ∀ x ∈ l, p x = false := by
  intro l
  induction l with
  | nil => simp [findSplit]
  | cons x l ih =>
    rw [findSplit]
    cases hp : p x with
    | true => simp [hp]
    | false =>
      cases hf : findSplit p l with
      | none =>
        simp only [Bool.false_eq_true, if_false, true_iff]
        intro y hy
        rcases List.mem_cons.1 hy with rfl | hy
        · exact hp
        · exact ih.1 hf y hy
      | some w =>
        simp only [Bool.false_eq_true, if_false]
        constructor
        · intro h; cases h
        · intro h
          have := ih.2 (fun y hy => h y (List.mem_cons_of_mem _ hy))
          rw [hf] at this; cases this

theorem findSplit_append {α : Type} (p : α → Bool) (l : List α) (a : α) (post : List α)
    (h : ∀ x ∈ l, p x = false) (ha : p a = true) : findSplit p (l ++ a :: post) = some (l, a, post) := by
  induction l with
  | nil => simp [findSplit, ha]
  | cons x l ih =>
    have hx := h x (by simp)
    rw [List.cons_append, findSplit, if_neg (by simp [hx]), ih (fun y hy => h y (List.mem_cons_of_mem _ hy))]

theorem uniqueAceid_iff (k : Int) (l : List Ace) : uniqueAceid k l = true ↔ ∀ a ∈ l, a.aceid ≠ k := by
  induction l with
  | nil => simp [uniqueAceid]
  | cons a l ih =>
    rw [uniqueAceid]
    by_cases h : a.aceid = k
    · simp [h]
    · simp [h, ih]

theorem newAceid_spec (aces : List Ace) : ∀ (rnd : List (BitVec 32)) (k : Int), newAceid aces rnd = some k →
    (∀ a ∈ aces, a.aceid ≠ k) ∧ 0 ≤ k ∧ k ≤ intMax := by
  intro rnd
  induction rnd with
  | nil => intro k h; cases h
  | cons r l ih =>
    intro k h
    rw [newAceid] at h
    split at h
    · rename_i hu
      simp only [Option.some.injEq] at h
      subst h
      refine ⟨(uniqueAceid_iff _ _).1 hu, by omega, ?_⟩
      have : (r >>> 1).toNat ≤ 2147483647 := by
        rw [BitVec.toNat_ushiftRight, Nat.shiftRight_eq_div_pow]
        have := r.isLt
        omega
      simp only [intMax]; omega
    · exact ih k h

theorem fresh_spec (f : Fresh) (aces : List Ace) (k : Int) (hk : f.id aces = some k) :
    (∀ a ∈ aces, a.aceid ≠ k) ∧ 0 ≤ k ∧ k ≤ intMax := by
  obtain ⟨rnd, h⟩ := f.random aces k hk
  exact newAceid_spec _ _ _ h

/-- What an ACE has besides its entries. -/
def SameHead (a a' : Ace) : Prop :=
  a'.aceid = a.aceid ∧ a'.subject = a.subject ∧ a'.permission = a.permission ∧ a'.tag = a.tag

theorem findResource_nil (href : Option Bytes) (w : BitVec 16) (l : List Entry) :
    findResource href w l = [] ↔ ∀ e ∈ l, entryMatches href w e = false := by
  induction l with
  | nil => simp [findResource]
  | cons e l ih =>
    rw [findResource]
    cases h : entryMatches href w e with
    | true => simp [h]
    | false => simp [h, ih]

theorem findResource_cons (href : Option Bytes) (w : BitVec 16) (l : List Entry) (e : Entry) (l' : List Entry)
    (h : findResource href w l = e :: l') : e ∈ l ∧ entryMatches href w e = true := by
  induction l with
  | nil => cases h
  | cons x l ih =>
    rw [findResource] at h
    split at h
    · rename_i hx
      simp only [List.cons.injEq] at h
      obtain ⟨rfl, -⟩ := h
      exact ⟨by simp, hx⟩
    · have := ih h
      exact ⟨List.mem_cons_of_mem _ this.1, this.2⟩

theorem getOrAddRes_some (a a' : Ace) (href : Option Bytes) (w : Wc) (c : Bool)
    (h : getOrAddRes a href w = .ok (some (a', c))) :
    SameHead a a' ∧
    ((c = false ∧ a' = a ∧ ∃ e ∈ a.resources, entryMatches href w.bits e = true) ∨
     (c = true ∧ a'.resources = a.resources ++ [⟨href, w⟩] ∧ ∀ e ∈ a.resources, entryMatches href w.bits e = false)) := by
  unfold getOrAddRes at h
  split at h
  · rename_i hf
    simp only [Out.ok.injEq, Option.some.injEq, Prod.mk.injEq] at h
    obtain ⟨rfl, rfl⟩ := h
    have := findResource_cons _ _ _ _ _ hf
    exact ⟨⟨rfl, rfl, rfl, rfl⟩, .inl ⟨rfl, rfl, _, this.1, this.2⟩⟩
  · rename_i hf
    have hn := (findResource_nil _ _ _).1 hf
    split at h
    · simp only [Out.ok.injEq, reduceCtorEq] at h
    · split at h
      · simp only [Out.ok.injEq, Option.some.injEq, Prod.mk.injEq] at h
        obtain ⟨rfl, rfl⟩ := h
        exact ⟨⟨rfl, rfl, rfl, rfl⟩, .inr ⟨rfl, rfl, hn⟩⟩
      · split at h
        · simp only [Out.ok.injEq, Option.some.injEq, Prod.mk.injEq] at h
          obtain ⟨rfl, rfl⟩ := h
          exact ⟨⟨rfl, rfl, rfl, rfl⟩, .inr ⟨rfl, rfl, hn⟩⟩
        · cases h

theorem getOrAddRes_none (a : Ace) (href : Option Bytes) (w : Wc) (h : getOrAddRes a href w = .ok none) :
    href = none ∧ w = .no := by
  unfold getOrAddRes at h
  split at h
  · simp only [Out.ok.injEq, reduceCtorEq] at h
  · split at h
    · rename_i hc; exact ⟨hc.2, hc.1⟩
    · split at h
      · simp only [Out.ok.injEq, reduceCtorEq] at h
      · split at h
        · simp only [Out.ok.injEq, reduceCtorEq] at h
        · cases h

theorem subjectMatches_self (s : Subject) : subjectMatches s s = true := by
  cases s <;> simp [subjectMatches]

theorem tagMatches_iff (a : Ace) (t : Option Bytes) : tagMatches a t = true ↔ a.tag = t := by
  cases t with
  | none => cases h : a.tag <;> simp [tagMatches, h]
  | some t => cases h : a.tag <;> simp [tagMatches, h]

theorem selects_iff (s : Subject) (k : Int) (p : BitVec 16) (t : Option Bytes) (a : Ace) :
    selects s k p t a = true ↔ (k = -1 ∨ a.aceid = k) ∧ (p = 0 ∨ a.permission = p) ∧ a.tag = t ∧ Spec.IsSubject a.subject s := by
  rw [selects, ← tagMatches_iff, ← subjectMatches_iff]
  by_cases h1 : k ≠ -1 ∧ a.aceid ≠ k
  · rw [if_pos h1]
    constructor
    · intro h; cases h
    · rintro ⟨h | h, -⟩
      · exact absurd h h1.1
      · exact absurd h h1.2
  rw [if_neg h1]
  by_cases h2 : p ≠ 0 ∧ a.permission ≠ p
  · rw [if_pos h2]
    constructor
    · intro h; cases h
    · rintro ⟨-, h | h, -⟩
      · exact absurd h h2.1
      · exact absurd h h2.2
  rw [if_neg h2]
  have e1 : k = -1 ∨ a.aceid = k := by
    by_cases hk : k = -1
    · exact .inl hk
    · by_cases ha : a.aceid = k
      · exact .inr ha
      · exact absurd ⟨hk, ha⟩ h1
  have e2 : p = 0 ∨ a.permission = p := by
    by_cases hk : p = 0
    · exact .inl hk
    · by_cases ha : a.permission = p
      · exact .inr ha
      · exact absurd ⟨hk, ha⟩ h2
  cases ht : tagMatches a t with
  | false => simp
  | true =>
    simp only [Bool.not_true, Bool.false_eq_true, if_false, true_and]
    exact ⟨fun h => ⟨e1, e2, h⟩, fun h => h.2.2⟩

/-- The ids of a list. -/
def ids (l : List Ace) : List Int := l.map Ace.aceid

/-- Every ACE with the id is the one that the update selects. -/
def Own (s : Subject) (k : Int) (p : BitVec 16) (t : Option Bytes) (l : List Ace) : Prop :=
  k ≠ -1 → ∀ a ∈ l, a.aceid = k → selects s k p t a = true

theorem selects_head (s : Subject) (k : Int) (p : BitVec 16) (t : Option Bytes) (a a' : Ace) (h : SameHead a a') :
    selects s k p t a' = selects s k p t a := by
  rw [Bool.eq_iff_iff, selects_iff, selects_iff, h.1, h.2.1, h.2.2.1, h.2.2.2]

theorem updateRes_inv (f : Fresh) (l : List Ace) (s : Subject) (k : Int) (p : BitVec 16) (t : Option Bytes)
    (href : Option Bytes) (w : Wc) (u : Upd) (h : updateRes f l s k p t href w = .ok u)
    (hn : (ids l).Nodup) (ho : Own s k p t l) : (ids u.aces).Nodup ∧ Own s k p t u.aces := by
  rw [updateRes] at h
  generalize hid : (if k = -1 then f.id l else some k) = id at h
  split at h
  · rename_i pre a post hf
    obtain ⟨rfl, ha, hpre⟩ := findSplit_some _ _ _ _ _ hf
    split at h
    · cases h
    · rename_i a' c hg
      simp only [Out.ok.injEq] at h
      subst h
      have hs := (getOrAddRes_some _ _ _ _ _ hg).1
      refine ⟨?_, ?_⟩
      · have : ids (pre ++ a' :: post) = ids (pre ++ a :: post) := by simp [ids, hs.1]
        dsimp only; rw [this]; exact hn
      · intro hk x hx hxk
        dsimp only at hx
        simp only [List.mem_append, List.mem_cons] at hx
        rcases hx with hx | rfl | hx
        · exact ho hk x (by simp [hx]) hxk
        · rw [selects_head _ _ _ _ _ _ hs]; exact ha
        · exact ho hk x (by simp [hx]) hxk
    · simp only [Out.ok.injEq] at h
      subst h
      refine ⟨?_, ?_⟩
      · have : (ids (pre ++ post)).Sublist (ids (pre ++ a :: post)) :=
          ((List.sublist_cons_self a post).append_left pre).map _
        exact hn.sublist this
      · intro hk x hx hxk
        dsimp only at hx
        exact ho hk x (by simp only [List.mem_append, List.mem_cons] at hx ⊢; rcases hx with h | h <;> simp [h]) hxk
  · rename_i hf
    rw [findSplit_none] at hf
    cases id with
    | none => cases h
    | some id =>
    dsimp only at h
    split at h
    · cases h
    · rename_i a' c hg
      simp only [Out.ok.injEq] at h
      subst h
      have hs := (getOrAddRes_some _ _ _ _ _ hg).1
      have hid' : ∀ a ∈ l, a.aceid ≠ a'.aceid := by
        rw [hs.1]
        dsimp only
        by_cases hk : k = -1
        · rw [if_pos hk] at hid
          exact (fresh_spec f l id hid).1
        · rw [if_neg hk, Option.some.injEq] at hid
          subst hid
          intro a ha hak
          have := hf a ha
          rw [ho hk a ha hak] at this; cases this
      refine ⟨?_, ?_⟩
      · simp only [ids, List.map_append, List.map_cons, List.map_nil]
        rw [List.nodup_append]
        refine ⟨hn, by simp, ?_⟩
        intro x hx y hy
        simp only [List.mem_map] at hx
        obtain ⟨a, ha, rfl⟩ := hx
        simp only [List.mem_singleton] at hy
        subst hy
        exact hid' a ha
      · intro hk x hx hxk
        simp only [List.mem_append, List.mem_singleton] at hx
        rcases hx with hx | rfl
        · exact ho hk x hx hxk
        · rw [selects_head _ _ _ _ _ _ hs, selects_iff]
          dsimp only
          refine ⟨.inr ?_, .inr rfl, rfl, ?_⟩
          · rw [if_neg hk, Option.some.injEq] at hid; exact hid.symm
          · rw [← subjectMatches_iff]; exact subjectMatches_self s
    · simp only [Out.ok.injEq] at h
      subst h
      exact ⟨hn, ho⟩

theorem decodeResources_inv (f : Fresh) (d : AceDec) : ∀ (rs : List Rep) (last : Option Int) (l : List Ace) (x : ResLoop),
    decodeResources f d rs last l = .ok x → (ids l).Nodup → Own d.subject d.aceid d.permission d.tag l →
    (ids x.aces).Nodup := by
  intro rs
  induction rs with
  | nil =>
    intro last l x h hn _
    simp only [decodeResources, Out.ok.injEq] at h
    subst h; exact hn
  | cons r rs ih =>
    intro last l x h hn ho
    rw [decodeResources] at h
    split at h
    · simp only [Out.ok.injEq] at h
      subst h; exact hn
    · rename_i e he
      cases hu : updateRes f l d.subject d.aceid d.permission d.tag e.href e.wc with
      | ub => rw [hu] at h; cases h
      | ok u =>
        rw [hu, Out.bind] at h
        have := updateRes_inv _ _ _ _ _ _ _ _ _ hu hn ho
        exact ih _ _ _ h this.1 this.2

theorem removeByAceid_spec (k : Int) (l : List Ace) (hn : (ids l).Nodup) :
    (removeByAceid k l).2 = l.filter (fun a => decide (a.aceid ≠ k)) ∧
    ((removeByAceid k l).1 = true ↔ ∃ a ∈ l, a.aceid = k) := by
  rw [removeByAceid]
  split
  · rename_i pre a post hf
    obtain ⟨rfl, ha, hpre⟩ := findSplit_some _ _ _ _ _ hf
    simp only [decide_eq_true_eq] at ha
    simp only [ids, List.map_append, List.map_cons] at hn
    rw [List.nodup_append] at hn
    obtain ⟨h1, h2, h3⟩ := hn
    rw [List.nodup_cons] at h2
    refine ⟨?_, iff_of_true rfl ⟨a, by simp, ha⟩⟩
    rw [List.filter_append, List.filter_cons_of_neg (by simp [ha])]
    have e1 : pre.filter (fun a => decide (a.aceid ≠ k)) = pre := by
      rw [List.filter_eq_self]
      intro x hx
      have := hpre x hx
      simpa using this
    have e2 : post.filter (fun a => decide (a.aceid ≠ k)) = post := by
      rw [List.filter_eq_self]
      intro x hx
      simp only [ne_eq, decide_eq_true_eq]
      intro hk
      exact h2.1 (by rw [ha, ← hk]; exact List.mem_map_of_mem hx)
    rw [e1, e2]
  · rename_i hf
    rw [findSplit_none] at hf
    refine ⟨?_, ?_⟩
    · symm
      rw [List.filter_eq_self]
      intro x hx
      have := hf x hx
      simpa using this
    · simp only [Bool.false_eq_true, false_iff, not_exists, not_and]
      intro x hx hk
      have := hf x hx
      simp [hk] at this

/-- The list in which the ACE of the payload is entered: without the one it
replaces. -/
theorem replaced_list (k : Int) (l : List Ace) (hn : (ids l).Nodup) :
    (if k ≠ -1 ∧ uniqueAceid k l = false then (removeByAceid k l).2 else l) =
      if k = -1 then l else l.filter (fun a => decide (a.aceid ≠ k)) := by
  by_cases hk : k = -1
  · simp [hk]
  rw [if_neg hk]
  cases hu : uniqueAceid k l with
  | false => rw [if_pos ⟨hk, rfl⟩, (removeByAceid_spec k l hn).1]
  | true =>
    rw [if_neg (by simp)]
    symm
    rw [List.filter_eq_self]
    intro x hx
    simpa using (uniqueAceid_iff _ _).1 hu x hx

theorem nodup_filter (l : List Ace) (q : Ace → Bool) (hn : (ids l).Nodup) : (ids (l.filter q)).Nodup :=
  hn.sublist (List.filter_sublist.map _)

theorem decodeAceItem_inv (f : Fresh) (cb : Bool) (item : Rep) (l : List Ace) (x : Bool × List Ace)
    (h : decodeAceItem f cb item l = .ok x) (hn : (ids l).Nodup) : (ids x.2).Nodup := by
  rw [decodeAceItem] at h
  cases hd : decodeAce item AceDec.init with
  | ub => rw [hd] at h; cases h
  | ok o =>
    rw [hd, Out.bind] at h
    cases o with
    | none => simp only [Out.ok.injEq] at h; subst h; exact hn
    | some d =>
      dsimp only at h
      rw [replaced_list _ _ hn] at h
      generalize hl : (if d.aceid = -1 then l else l.filter (fun a => decide (a.aceid ≠ d.aceid))) = l' at h
      have hn' : (ids l').Nodup := by
        rw [← hl]; split
        · exact hn
        · exact nodup_filter _ _ hn
      have ho : Own d.subject d.aceid d.permission d.tag l' := by
        intro hk a ha hak
        rw [← hl, if_neg hk] at ha
        simp [hak] at ha
      cases hr : decodeResources f d d.resources none l' with
      | ub => rw [hr] at h; cases h
      | ok y =>
        rw [hr, Out.bind] at h
        have hy := decodeResources_inv _ _ _ _ _ _ hr hn' ho
        repeat' split at h
        all_goals try cases h
        all_goals exact hy

theorem decodeAces_inv (f : Fresh) (cb : Bool) : ∀ (items : List Rep) (l : List Ace) (x : Bool × List Ace),
    decodeAces f cb items l = .ok x → (ids l).Nodup → (ids x.2).Nodup := by
  intro items
  induction items with
  | nil => intro l x h hn; simp only [decodeAces, Out.ok.injEq] at h; subst h; exact hn
  | cons r rs ih =>
    intro l x h hn
    rw [decodeAces] at h
    cases hd : decodeAceItem f cb r l with
    | ub => rw [hd] at h; cases h
    | ok y =>
      rw [hd, Out.bind] at h
      have hy := decodeAceItem_inv _ _ _ _ _ hd hn
      split at h
      · exact ih _ _ h hy
      · simp only [Out.ok.injEq] at h; subst h; exact hy

theorem applyAcl_inv (f : Fresh) (cb : Bool) : ∀ (rep : Rep) (st : AclState) (x : Bool × AclState),
    applyAcl f cb rep st = .ok x → (ids st.aces).Nodup → (ids x.2.aces).Nodup := by
  intro rep
  induction rep with
  | nil => intro st x h hn; simp only [applyAcl, Out.ok.injEq] at h; subst h; exact hn
  | cons kv r ih =>
    intro st x h hn
    obtain ⟨k, v⟩ := kv
    unfold applyAcl at h
    cases v
    case str s =>
      dsimp only at h
      split at h
      · cases hs : Sec.strToUuid st.owner s with
        | ub => rw [hs] at h; cases h
        | ok u => rw [hs, Out.bind] at h; exact ih _ x h hn
      · exact ih _ x h hn
    case objs l =>
      dsimp only at h
      cases hs : decodeAces f cb l st.aces with
      | ub => rw [hs] at h; cases h
      | ok y =>
        rw [hs, Out.bind] at h
        have hy := decodeAces_inv _ _ _ _ _ hs hn
        split at h
        · exact ih _ x h hy
        · simp only [Out.ok.injEq] at h; subst h; exact hy
    all_goals exact ih _ x h hn

end Verif.Acl
