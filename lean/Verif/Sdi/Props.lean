import Verif.Sdi.Model
import Verif.Sec.Lemmas

/-!
Updates of the security domain information.
-/

namespace Verif.Sdi

open Verif.Rep (Bytes b Val Rep)
open Verif.Acl (Dos Id nilId)

/-- Specification: the last string property of that name. -/
def Spec.lastStr (k : Bytes) (rep : Rep) : Option Bytes :=
  (rep.reverse.findSome? fun p => match p.2 with | .str s => if p.1 = k then some s else none | _ => none)

/-- Specification: the last boolean property of that name. -/
def Spec.lastBool (k : Bytes) (rep : Rep) : Option Bool :=
  (rep.reverse.findSome? fun p => match p.2 with | .bool s => if p.1 = k then some s else none | _ => none)

/-- Specification: a property that the device in this state lets a client write:
the uuid in RFOTM, name and privacy flag in RFOTM, RFPRO and SRESET; a uuid has at
least 36 characters. Properties of other names or types are ignored. -/
def Spec.Allowed (dos : Dos) (p : Bytes × Val) : Prop :=
  (∀ s, p = (b "uuid", .str s) → dos = .rfotm ∧ 36 ≤ s.length) ∧
  (∀ s, p = (b "name", .str s) → dos = .rfotm ∨ dos = .rfpro ∨ dos = .sreset) ∧
  (∀ v, p = (b "priv", .bool v) → dos = .rfotm ∨ dos = .rfpro ∨ dos = .sreset)

theorem collect_spec (dos : Dos) (rep : Rep) (d : Data) :
    (∀ d', collect dos false rep d = some d' → (∀ p ∈ rep, Spec.Allowed dos p) ∧
      d'.uuid = (Spec.lastStr (b "uuid") rep).or d.uuid ∧ d'.name = (Spec.lastStr (b "name") rep).or d.name ∧
      d'.priv = (Spec.lastBool (b "priv") rep).or d.priv) ∧
    ((∀ p ∈ rep, Spec.Allowed dos p) → ∃ d', collect dos false rep d = some d') := by
  have hun : b "uuid" ≠ b "name" := by decide
  induction rep generalizing d with
  | nil =>
    refine ⟨?_, fun _ => ⟨_, rfl⟩⟩
    intro d' h
    simp only [collect, Option.some.injEq] at h
    subst h
    simp [Spec.lastStr, Spec.lastBool]
  | cons p r ih =>
    obtain ⟨k, v⟩ := p
    cases v with
    | str s =>
      unfold collect
      dsimp only
      unfold decodeStr
      by_cases hk : k = b "uuid"
      · subst hk
        rw [if_pos rfl]
        by_cases h1 : dos = .rfotm
        · by_cases h2 : s.length < 36
          · rw [if_neg (by simp [h1]), if_pos h2]
            refine ⟨fun d' h => by simp at h, fun h => ?_⟩
            have := ((h _ (List.mem_cons_self ..)).1 s rfl).2
            omega
          · rw [if_neg (by simp [h1]), if_neg h2]
            obtain ⟨i1, i2⟩ := ih { d with uuid := some s }
            refine ⟨fun d' h => ?_, fun h => i2 fun p hp => h p (List.mem_cons_of_mem _ hp)⟩
            obtain ⟨j1, j2, j3, j4⟩ := i1 d' h
            refine ⟨?_, ?_, ?_, ?_⟩
            · intro p hp
              rcases List.mem_cons.1 hp with rfl | hp
              · refine ⟨?_, ?_, ?_⟩
                · rintro s' ⟨⟩; exact ⟨h1, by omega⟩
                · rintro s' he; cases he; 
                · rintro s' he; cases he
              · exact j1 p hp
            · rw [j2]; simp [Spec.lastStr, List.findSome?_append]
            · rw [j3]; simp [Spec.lastStr, List.findSome?_append, hun]
            · rw [j4]; simp [Spec.lastBool, List.findSome?_append]
        · rw [if_pos (by simp [h1])]
          refine ⟨fun d' h => by simp at h, fun h => ?_⟩
          exact absurd ((h _ (List.mem_cons_self ..)).1 s rfl).1 h1
      · rw [if_neg hk]
        by_cases hk2 : k = b "name"
        · subst hk2
          rw [if_pos rfl]
          by_cases h1 : dos = .rfotm ∨ dos = .rfpro ∨ dos = .sreset
          · rw [if_neg (by revert h1; cases dos <;> simp)]
            obtain ⟨i1, i2⟩ := ih { d with name := some s }
            refine ⟨fun d' h => ?_, fun h => i2 fun p hp => h p (List.mem_cons_of_mem _ hp)⟩
            obtain ⟨j1, j2, j3, j4⟩ := i1 d' h
            refine ⟨?_, ?_, ?_, ?_⟩
            · intro p hp
              rcases List.mem_cons.1 hp with rfl | hp
              · refine ⟨?_, fun _ _ => h1, ?_⟩
                · rintro s' he; cases he
                · rintro s' he; cases he
              · exact j1 p hp
            · rw [j2]; simp [Spec.lastStr, List.findSome?_append, hk]
            · rw [j3]; simp [Spec.lastStr, List.findSome?_append]
            · rw [j4]; simp [Spec.lastBool, List.findSome?_append]
          · rw [if_pos (by revert h1; cases dos <;> simp)]
            refine ⟨fun d' h => by simp at h, fun h => ?_⟩
            exact absurd ((h _ (List.mem_cons_self ..)).2.1 s rfl) h1
        · rw [if_neg hk2]
          obtain ⟨i1, i2⟩ := ih d
          refine ⟨fun d' h => ?_, fun h => i2 fun p hp => h p (List.mem_cons_of_mem _ hp)⟩
          obtain ⟨j1, j2, j3, j4⟩ := i1 d' h
          refine ⟨?_, ?_, ?_, ?_⟩
          · intro p hp
            rcases List.mem_cons.1 hp with rfl | hp
            · refine ⟨?_, ?_, ?_⟩
              · rintro s' he; cases he; exact absurd rfl hk
              · rintro s' he; cases he; exact absurd rfl hk2
              · rintro s' he; cases he
            · exact j1 p hp
          · rw [j2]; simp [Spec.lastStr, List.findSome?_append, hk]
          · rw [j3]; simp [Spec.lastStr, List.findSome?_append, hk2]
          · rw [j4]; simp [Spec.lastBool, List.findSome?_append]
    | bool s =>
      unfold collect
      dsimp only
      unfold decodeBool
      by_cases hk2 : k = b "priv"
      · subst hk2
        rw [if_pos rfl]
        by_cases h1 : dos = .rfotm ∨ dos = .rfpro ∨ dos = .sreset
        · rw [if_neg (by revert h1; cases dos <;> simp)]
          obtain ⟨i1, i2⟩ := ih { d with priv := some s }
          refine ⟨fun d' h => ?_, fun h => i2 fun p hp => h p (List.mem_cons_of_mem _ hp)⟩
          obtain ⟨j1, j2, j3, j4⟩ := i1 d' h
          refine ⟨?_, ?_, ?_, ?_⟩
          · intro p hp
            rcases List.mem_cons.1 hp with rfl | hp
            · refine ⟨?_, ?_, fun _ _ => h1⟩
              · rintro s' he; cases he
              · rintro s' he; cases he
            · exact j1 p hp
          · rw [j2]; simp [Spec.lastStr, List.findSome?_append]
          · rw [j3]; simp [Spec.lastStr, List.findSome?_append]
          · rw [j4]; simp [Spec.lastBool, List.findSome?_append]
        · rw [if_pos (by revert h1; cases dos <;> simp)]
          refine ⟨fun d' h => by simp at h, fun h => ?_⟩
          exact absurd ((h _ (List.mem_cons_self ..)).2.2 s rfl) h1
      · rw [if_neg hk2]
        obtain ⟨i1, i2⟩ := ih d
        refine ⟨fun d' h => ?_, fun h => i2 fun p hp => h p (List.mem_cons_of_mem _ hp)⟩
        obtain ⟨j1, j2, j3, j4⟩ := i1 d' h
        refine ⟨?_, ?_, ?_, ?_⟩
        · intro p hp
          rcases List.mem_cons.1 hp with rfl | hp
          · refine ⟨?_, ?_, ?_⟩
            · rintro s' he; cases he
            · rintro s' he; cases he
            · rintro s' he; cases he; exact absurd rfl hk2
          · exact j1 p hp
        · rw [j2]; simp [Spec.lastStr, List.findSome?_append]
        · rw [j3]; simp [Spec.lastStr, List.findSome?_append]
        · rw [j4]; simp [Spec.lastBool, List.findSome?_append, hk2]
    | _ =>
      unfold collect
      dsimp only
      obtain ⟨i1, i2⟩ := ih d
      refine ⟨fun d' h => ?_, fun h => i2 fun p hp => h p (List.mem_cons_of_mem _ hp)⟩
      obtain ⟨j1, j2, j3, j4⟩ := i1 d' h
      refine ⟨?_, ?_, ?_, ?_⟩
      · intro p hp
        rcases List.mem_cons.1 hp with rfl | hp
        · refine ⟨?_, ?_, ?_⟩
          · rintro s' he; cases he
          · rintro s' he; cases he
          · rintro s' he; cases he
        · exact j1 p hp
      · rw [j2]; simp [Spec.lastStr, List.findSome?_append]
      · rw [j3]; simp [Spec.lastStr, List.findSome?_append]
      · rw [j4]; simp [Spec.lastBool, List.findSome?_append]

/-- A refused update changes nothing; an update is refused exactly if one of its
properties may not be written in the device's state, or it has none of the three. -/
theorem refused (dos : Dos) (rep : Rep) (sdi : Sdi) :
    (decode dos false rep sdi = .ok (false, sdi) ↔
      (∃ p ∈ rep, ¬ Spec.Allowed dos p) ∨
      (Spec.lastStr (b "uuid") rep = none ∧ Spec.lastStr (b "name") rep = none ∧ Spec.lastBool (b "priv") rep = none)) ∧
    (∀ s, decode dos false rep sdi = .ok (false, s) → s = sdi) := by
  obtain ⟨h1, h2⟩ := collect_spec dos rep ⟨none, none, none⟩
  unfold decode
  cases hc : collect dos false rep ⟨none, none, none⟩ with
  | none =>
    refine ⟨⟨fun _ => .inl ?_, fun _ => rfl⟩, fun s hs => by simp at hs; exact hs.symm⟩
    apply Classical.byContradiction
    intro hn
    obtain ⟨d', hd⟩ := h2 fun p hp => Classical.byContradiction fun hh => hn ⟨p, hp, hh⟩
    rw [hc] at hd; cases hd
  | some d =>
    obtain ⟨j1, j2, j3, j4⟩ := h1 d hc
    simp only [Option.or_none] at j2 j3 j4
    dsimp only
    have hx : ¬ ∃ p ∈ rep, ¬ Spec.Allowed dos p := fun ⟨p, hp, hn⟩ => hn (j1 p hp)
    split
    · rename_i hh
      simp only [Bool.and_eq_true, Option.isNone_iff_eq_none] at hh
      refine ⟨⟨fun _ => .inr ⟨j2 ▸ hh.1.1, j3 ▸ hh.1.2, j4 ▸ hh.2⟩, fun _ => rfl⟩, fun s hs => by simp at hs; exact hs.symm⟩
    · rename_i hh
      have hne : ∀ s, ((setUuid d.uuid sdi).bind fun sdi => Out.ok (true, setPriv d.priv (setName d.name sdi))) ≠ .ok (false, s) := by
        intro s
        cases setUuid d.uuid sdi with
        | ub => simp [Out.bind]
        | ok x => simp [Out.bind]
      refine ⟨⟨fun he => absurd he (hne _), ?_⟩, fun s he => absurd he (hne _)⟩
      rintro (h | ⟨e1, e2, e3⟩)
      · exact absurd h hx
      · exfalso
        apply hh
        simp [j2, j3, j4, e1, e2, e3]

/-- An accepted update applies the last value of each of its three properties, and
changes nothing else: a name of length 0 deletes the name, the uuid is what
`oc_str_to_uuid` makes of the text. -/
theorem accepted (dos : Dos) (rep : Rep) (sdi s : Sdi) (h : decode dos false rep sdi = .ok (true, s)) :
    (∀ p ∈ rep, Spec.Allowed dos p) ∧
    (Spec.lastStr (b "uuid") rep = none → s.uuid = sdi.uuid) ∧
    (∀ t, Spec.lastStr (b "uuid") rep = some t → Sec.strToUuid sdi.uuid t = .ok s.uuid) ∧
    (Spec.lastStr (b "name") rep = none → s.name = sdi.name) ∧
    (∀ t, Spec.lastStr (b "name") rep = some t → s.name = if t = [] then none else some t) ∧
    s.priv = (Spec.lastBool (b "priv") rep).getD sdi.priv := by
  obtain ⟨h1, -⟩ := collect_spec dos rep ⟨none, none, none⟩
  unfold decode at h
  cases hc : collect dos false rep ⟨none, none, none⟩ with
  | none => rw [hc] at h; simp at h
  | some d =>
    obtain ⟨j1, j2, j3, j4⟩ := h1 d hc
    simp only [Option.or_none] at j2 j3 j4
    rw [hc] at h
    dsimp only at h
    split at h
    · simp at h
    rw [← j2, ← j3, ← j4]
    refine ⟨j1, ?_⟩
    have hp : ∀ x p, (setPriv p x).priv = p.getD x.priv ∧ (setPriv p x).uuid = x.uuid ∧ (setPriv p x).name = x.name := by
      intro x p; cases p <;> simp [setPriv]
    have hnm : ∀ x n, (setName n x).priv = x.priv ∧ (setName n x).uuid = x.uuid ∧ (n = none → (setName n x).name = x.name) ∧
        (∀ t, n = some t → (setName n x).name = if t = [] then none else some t) := by
      intro x n
      cases n with
      | none => simp [setName]
      | some t => cases t <;> simp [setName]
    cases hu : d.uuid with
    | none =>
      rw [hu, setUuid, Out.bind] at h
      simp only [Out.ok.injEq, Prod.mk.injEq, true_and] at h
      subst h
      simp only [(hp _ _).1, (hp _ _).2.1, (hp _ _).2.2, (hnm _ _).1, (hnm _ _).2.1]
      exact ⟨fun _ => trivial, fun t ht => (by cases ht), (hnm _ _).2.2.1, (hnm _ _).2.2.2, trivial⟩
    | some t =>
      rw [hu, setUuid] at h
      cases hs : Sec.strToUuid sdi.uuid t with
      | ub => rw [hs] at h; simp [Out.bind] at h
      | ok u =>
        rw [hs] at h
        simp only [Out.bind, Out.ok.injEq, Prod.mk.injEq, true_and] at h
        subst h
        simp only [(hp _ _).1, (hp _ _).2.1, (hp _ _).2.2, (hnm _ _).1, (hnm _ _).2.1]
        refine ⟨fun hh => (by cases hh), fun t' ht => ?_, fun hh => (hnm _ _).2.2.1 hh, (hnm _ _).2.2.2, trivial⟩
        cases ht; exact hs

/-- A well-formed uuid is taken over exactly. -/
theorem sets_uuid (sdi s : Sdi) (u : Id) (hu : u.length = 16) (rep : Rep)
    (hl : Spec.lastStr (b "uuid") rep = some (Sec.uuidText u)) (h : decode .rfotm false rep sdi = .ok (true, s)) : s.uuid = u := by
  have := (accepted _ _ _ _ h).2.2.1 _ hl
  rw [Sec.strToUuid_text _ _ hu] at this
  exact (Out.ok.inj this).symm

example : decode .rfotm false [(b "name", .str (b "home")), (b "uuid", .str (Sec.uuidText (List.replicate 16 0xab))), (b "priv", .bool true)]
    ⟨false, nilId, none⟩ = .ok (true, ⟨true, List.replicate 16 0xab, some (b "home")⟩) := by decide +kernel

example : decode .rfpro false [(b "name", .str (b "home")), (b "uuid", .str (Sec.uuidText (List.replicate 16 0xab)))]
    ⟨false, nilId, none⟩ = .ok (false, ⟨false, nilId, none⟩) := by decide +kernel

/-- The stored information is found again after a restart, unless the uuid is the
wildcard. -/
theorem restart (dos : Dos) (sdi : Sdi) (hu : sdi.uuid.length = 16) (hw : sdi.uuid ≠ 42 :: List.replicate 15 0)
    (hn : sdi.name ≠ some []) (s0 : Sdi) : decode dos true (encode sdi) s0 = .ok (true, sdi) := by
  have hlen : 36 ≤ (Sec.uuidText sdi.uuid).length := by
    obtain ⟨s, h, ⟨x1, x2, x3, x4, x5, dash, hd, rfl, h1, h2, h3, h4, h5, hx⟩, -⟩ := (Uuid.toStr_format sdi.uuid hu hw 37).1 (by omega)
    rw [Sec.uuidText, h]
    simp [h1, h2, h3, h4, h5]
  have hc : collect dos true (encode sdi) ⟨none, none, none⟩ =
      some ⟨some (Sec.uuidText sdi.uuid), some (sdi.name.getD []), some sdi.priv⟩ := by
    have e1 : ∀ t, decodeStr (b "uuid") (Sec.uuidText sdi.uuid) dos true t = some { t with uuid := some (Sec.uuidText sdi.uuid) } := by
      intro t
      rw [decodeStr, if_pos rfl, if_neg (by simp), if_neg (by omega)]
    have e2 : ∀ t n, decodeStr (b "name") n dos true t = some { t with name := some n } := by
      intro t n
      rw [decodeStr, if_neg (by decide), if_pos rfl, if_neg (by simp)]
    have e3 : ∀ t n, decodeBool (b "priv") n dos true t = some { t with priv := some n } := by
      intro t n
      rw [decodeBool, if_pos rfl, if_neg (by simp)]
    simp only [encode, collect, e1, e2, e3, Option.bind]
  rw [decode, hc]
  simp only [Option.isNone, Bool.false_and, Bool.false_eq_true, if_false]
  rw [setUuid, Sec.strToUuid_text _ _ hu]
  simp only [Out.bind, setName, setPriv]
  obtain ⟨p, u, n⟩ := sdi
  cases n with
  | none => rfl
  | some n => cases n with
    | nil => exact absurd rfl hn
    | cons a l => rfl

example : (⟨true, List.replicate 16 0xab, some (b "home")⟩ : Sdi).uuid ≠ 42 :: List.replicate 15 0 := by decide

/-- A malformed uuid is accepted: the text is not validated beyond its length. With
too many digits the uuid stays as it was, although the response is "changed"; with
too few it becomes something else. -/
theorem garbage_uuid_false :
    decode .rfotm false [(b "uuid", .str (b "zzzzzzzzzzzzzzzzzzzzzzzzzzzzzzzzzzzz"))] ⟨false, List.replicate 16 0xab, none⟩ =
      .ok (true, ⟨false, List.replicate 16 0xab, none⟩) ∧
    decode .rfotm false [(b "uuid", .str (b "12----------------------------------"))] ⟨false, List.replicate 16 0xab, none⟩ =
      .ok (true, ⟨false, 0x12 :: List.replicate 15 0, none⟩) := by decide +kernel

end Verif.Sdi
