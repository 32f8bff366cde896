import Verif.Doxm.Model
import Verif.Sec.Lemmas

/-!
Updates of the ownership resource.
-/

namespace Verif.Doxm

open Verif.Rep (Bytes b Val Rep)
open Verif.Acl (Dos Id nilId)

/-- Specification: the property may be written by a client in this situation. The
selected transfer method is written outside of the onboarding connection and must be
supported; ownership and the uuids are written by the onboarding connection. -/
inductive Spec.Writable (e : Env) : Bytes × Val → Prop
  | oxmsel (i : Int) : e.dos = .rfotm → e.doc = false → Sec.toInt32 i ∈ e.oxms → Writable e (b "oxmsel", .int i)
  | owned (v : Bool) : e.dos = .rfotm → e.doc = true → Writable e (b "owned", .bool v)
  | device (s : Bytes) : e.dos = .rfotm → e.doc = true → Writable e (b "deviceuuid", .str s)
  | devowner (s : Bytes) : e.dos = .rfotm → e.doc = true → Writable e (b "devowneruuid", .str s)
  | rowner (s : Bytes) : (e.dos = .rfotm ∨ e.dos = .sreset) → e.doc = true → Writable e (b "rowneruuid", .str s)

/-- Specification: the last value of the property that `f` selects. -/
def Spec.last {α : Type} (f : Val → Option α) (k : Bytes) (rep : Rep) : Option α :=
  rep.reverse.findSome? fun p => if p.1 = k then f p.2 else none

/-- Specification: the last text. -/
def Spec.lastStr := @Spec.last Bytes fun | .str s => some s | _ => none
/-- Specification: the last boolean. -/
def Spec.lastBool := @Spec.last Bool fun | .bool s => some s | _ => none
/-- Specification: the last integer. -/
def Spec.lastInt := @Spec.last Int fun | .int s => some s | _ => none

theorem last_cons {α : Type} (f : Val → Option α) (k : Bytes) (p : Bytes × Val) (r : Rep) :
    Spec.last f k (p :: r) = (Spec.last f k r).or (if p.1 = k then f p.2 else none) := by
  simp [Spec.last, List.findSome?_append]

/-- The result of collecting, in terms of the specification. -/
def Collected (rep : Rep) (d d' : Dec) : Prop :=
  d'.device = (Spec.lastStr (b "deviceuuid") rep).or d.device ∧
  d'.devowner = (Spec.lastStr (b "devowneruuid") rep).or d.devowner ∧
  d'.rowner = (Spec.lastStr (b "rowneruuid") rep).or d.rowner ∧
  d'.oxmsel = ((Spec.lastInt (b "oxmsel") rep).map Sec.toInt32).or d.oxmsel ∧
  d'.sct = d.sct ∧
  d'.owned = (Spec.lastBool (b "owned") rep).or d.owned

theorem writable_str (e : Env) (k s : Bytes) : Spec.Writable e (k, .str s) ↔
    e.doc = true ∧ ((k = b "deviceuuid" ∧ e.dos = .rfotm) ∨ (k = b "devowneruuid" ∧ e.dos = .rfotm) ∨
      (k = b "rowneruuid" ∧ (e.dos = .rfotm ∨ e.dos = .sreset))) := by
  constructor
  · intro h
    cases h with
    | device _ h1 h2 => exact ⟨h2, .inl ⟨rfl, h1⟩⟩
    | devowner _ h1 h2 => exact ⟨h2, .inr (.inl ⟨rfl, h1⟩)⟩
    | rowner _ h1 h2 => exact ⟨h2, .inr (.inr ⟨rfl, h1⟩)⟩
  · rintro ⟨h2, ⟨rfl, h1⟩ | ⟨rfl, h1⟩ | ⟨rfl, h1⟩⟩
    · exact .device s h1 h2
    · exact .devowner s h1 h2
    · exact .rowner s h1 h2

theorem decodeProp_spec (e : Env) (he : e.fromStorage = false) (ho : e.oxms.length ≤ 3) (k : Bytes) (v : Val) (d : Dec) :
    (¬ Spec.Writable e (k, v) ∧ decodeProp e k v d = .ok none) ∨
    (Spec.Writable e (k, v) ∧ ∃ d', decodeProp e k v d = .ok (some d') ∧ Collected [(k, v)] d d') := by
  obtain ⟨fs, doc, dos, oxms⟩ := e
  dsimp only at he ho
  subst he
  unfold decodeProp
  rw [if_neg (by simp)]
  cases v with
  | bool v =>
    dsimp only
    unfold decodeBool
    by_cases hk : k = b "owned"
    · subst hk
      rw [if_pos rfl]
      by_cases h1 : dos = .rfotm
      · rw [if_neg (by simp [h1])]
        cases doc with
        | false => left; exact ⟨by rintro ⟨⟩; simp_all, by simp⟩
        | true =>
          right
          refine ⟨.owned v h1 rfl, _, by rw [if_neg (by simp)], ?_⟩
          simp [Collected, Spec.lastStr, Spec.lastBool, Spec.lastInt, Spec.last]
      · left
        rw [if_pos (by simp [h1])]
        exact ⟨by rintro ⟨⟩; simp_all, rfl⟩
    · left
      rw [if_neg hk]
      exact ⟨by rintro ⟨⟩; exact hk rfl, rfl⟩
  | int i =>
    dsimp only
    unfold decodeInt
    by_cases hk : k = b "oxmsel"
    · subst hk
      rw [if_pos rfl, if_neg (by simp)]
      by_cases h1 : dos = .rfotm
      · rw [if_neg (by simp [h1])]
        cases doc with
        | true => left; exact ⟨by rintro ⟨⟩; simp_all, by simp⟩
        | false =>
          rw [if_neg (by simp), if_neg (by simpa using ho)]
          by_cases hm : Sec.toInt32 i ∈ oxms
          · right
            refine ⟨.oxmsel i h1 rfl hm, _, by rw [if_pos (by simpa using hm)], ?_⟩
            simp [Collected, Spec.lastStr, Spec.lastBool, Spec.lastInt, Spec.last]
          · left
            rw [if_neg (by simpa using hm)]
            exact ⟨by rintro ⟨⟩; simp_all, rfl⟩
      · left
        rw [if_pos (by simp [h1])]
        exact ⟨by rintro ⟨⟩; simp_all, rfl⟩
    · left
      rw [if_neg hk]
      refine ⟨by rintro ⟨⟩; exact hk rfl, ?_⟩
      split
      · rw [if_neg (by simp)]
      · rfl
  | str s =>
    dsimp only
    unfold decodeStr
    have w1 : ∀ l, writable ⟨false, doc, dos, oxms⟩ l = (l.contains dos && doc) := by
      intro l; unfold writable; cases l.contains dos <;> simp
    simp only [w1]
    rw [writable_str]
    dsimp only
    have n1 : b "deviceuuid" ≠ b "devowneruuid" := by decide
    have n2 : b "deviceuuid" ≠ b "rowneruuid" := by decide
    have n3 : b "devowneruuid" ≠ b "rowneruuid" := by decide
    by_cases hk : k = b "deviceuuid"
    · subst hk
      rw [if_pos rfl]
      by_cases h1 : dos = .rfotm ∧ doc = true
      · right
        refine ⟨⟨h1.2, .inl ⟨rfl, h1.1⟩⟩, _, by rw [if_pos (by simp [h1])], ?_⟩
        simp [Collected, Spec.lastStr, Spec.lastBool, Spec.lastInt, Spec.last, n1, n2]
      · left
        rw [if_neg (by simpa using h1)]
        refine ⟨?_, rfl⟩
        rintro ⟨h2, ⟨h3, h4⟩ | ⟨h3, h4⟩ | ⟨h3, h4⟩⟩
        · exact h1 ⟨h4, h2⟩
        · exact n1 h3
        · exact n2 h3
    rw [if_neg hk]
    by_cases hk2 : k = b "devowneruuid"
    · subst hk2
      rw [if_pos rfl]
      by_cases h1 : dos = .rfotm ∧ doc = true
      · right
        refine ⟨⟨h1.2, .inr (.inl ⟨rfl, h1.1⟩)⟩, _, by rw [if_pos (by simp [h1])], ?_⟩
        simp [Collected, Spec.lastStr, Spec.lastBool, Spec.lastInt, Spec.last, hk, n3]
      · left
        rw [if_neg (by simpa using h1)]
        refine ⟨?_, rfl⟩
        rintro ⟨h2, ⟨h3, h4⟩ | ⟨h3, h4⟩ | ⟨h3, h4⟩⟩
        · exact hk h3
        · exact h1 ⟨h4, h2⟩
        · exact n3 h3
    rw [if_neg hk2]
    by_cases hk3 : k = b "rowneruuid"
    · subst hk3
      rw [if_pos rfl]
      by_cases h1 : (dos = .rfotm ∨ dos = .sreset) ∧ doc = true
      · right
        refine ⟨⟨h1.2, .inr (.inr ⟨rfl, h1.1⟩)⟩, _, by rw [if_pos (by simp [h1])], ?_⟩
        simp [Collected, Spec.lastStr, Spec.lastBool, Spec.lastInt, Spec.last, hk, hk2]
      · left
        rw [if_neg (by simpa using h1)]
        refine ⟨?_, rfl⟩
        rintro ⟨h2, ⟨h3, h4⟩ | ⟨h3, h4⟩ | ⟨h3, h4⟩⟩
        · exact hk h3
        · exact hk2 h3
        · exact h1 ⟨h4, h2⟩
    left
    rw [if_neg hk3]
    refine ⟨?_, rfl⟩
    rintro ⟨h2, ⟨h3, h4⟩ | ⟨h3, h4⟩ | ⟨h3, h4⟩⟩
    · exact hk h3
    · exact hk2 h3
    · exact hk3 h3
  | _ => left; exact ⟨by rintro ⟨⟩, rfl⟩

theorem collect_spec (e : Env) (he : e.fromStorage = false) (ho : e.oxms.length ≤ 3) (rep : Rep) (d : Dec) :
    ((∃ p ∈ rep, ¬ Spec.Writable e p) ∧ collect e rep d = .ok none) ∨
    ((∀ p ∈ rep, Spec.Writable e p) ∧ ∃ d', collect e rep d = .ok (some d') ∧ Collected rep d d') := by
  induction rep generalizing d with
  | nil =>
    right
    refine ⟨fun p hp => by simp at hp, d, rfl, ?_⟩
    simp [Collected, Spec.lastStr, Spec.lastBool, Spec.lastInt, Spec.last]
  | cons p r ih =>
    obtain ⟨k, v⟩ := p
    rcases decodeProp_spec e he ho k v d with ⟨h1, h2⟩ | ⟨h1, d1, h2, h3⟩
    · left
      exact ⟨⟨_, List.mem_cons_self .., h1⟩, by rw [collect, h2, Out.bind]⟩
    · rcases ih d1 with ⟨⟨p, hp, hn⟩, hc⟩ | ⟨ha, d2, hc, h4⟩
      · left
        exact ⟨⟨p, List.mem_cons_of_mem _ hp, hn⟩, by rw [collect, h2, Out.bind]; exact hc⟩
      · right
        refine ⟨?_, d2, by rw [collect, h2, Out.bind]; exact hc, ?_⟩
        · intro p hp
          rcases List.mem_cons.1 hp with rfl | hp
          · exact h1
          · exact ha p hp
        · obtain ⟨a1, a2, a3, a4, a5, a6⟩ := h3
          obtain ⟨c1, c2, c3, c4, c5, c6⟩ := h4
          have hnil : ∀ {α : Type} (f : Val → Option α) k, Spec.last f k [] = none := by intros; rfl
          unfold Collected
          simp only [Spec.lastStr, Spec.lastInt, Spec.lastBool, last_cons, hnil, Option.none_or] at a1 a2 a3 a4 a6 c1 c2 c3 c4 c6 ⊢
          refine ⟨?_, ?_, ?_, ?_, c5.trans a5, ?_⟩
          · rw [c1, a1, Option.or_assoc]
          · rw [c2, a2, Option.or_assoc]
          · rw [c3, a3, Option.or_assoc]
          · rw [c4, a4, ← Option.or_assoc]
            congr 1
            cases Spec.last (fun | Val.int s => some s | _ => none) (b "oxmsel") r <;> simp
          · rw [c6, a6, Option.or_assoc]

/-- A client's update is refused exactly if one of its properties may not be written
in the device's state by this peer, and then nothing changes. (At most three
transfer methods are supported.) -/
theorem refused (e : Env) (he : e.fromStorage = false) (ho : e.oxms.length ≤ 3) (rep : Rep) (x : Doxm) :
    (decode e rep x = .ok (false, x) ↔ ∃ p ∈ rep, ¬ Spec.Writable e p) ∧
    ∀ x', decode e rep x = .ok (false, x') → x' = x := by
  rcases collect_spec e he ho rep ⟨none, none, none, none, none, none⟩ with ⟨h1, h2⟩ | ⟨h1, d, h2, -⟩
  · rw [decode, h2, Out.bind]
    exact ⟨⟨fun _ => h1, fun _ => rfl⟩, fun x' h => by simp at h; exact h.symm⟩
  · rw [decode, h2, Out.bind]
    have hne : ∀ x', ((copy d x).bind fun x => Out.ok (true, x)) ≠ .ok (false, x') := by
      intro x'
      cases copy d x <;> simp [Out.bind]
    exact ⟨⟨fun h => absurd h (hne _), fun ⟨p, hp, hn⟩ => absurd (h1 p hp) hn⟩, fun x' h => absurd h (hne _)⟩

/-- An accepted update of a client applies the last value of each property it has
and leaves the others. -/
theorem accepted (e : Env) (he : e.fromStorage = false) (ho : e.oxms.length ≤ 3) (rep : Rep) (x x' : Doxm)
    (h : decode e rep x = .ok (true, x')) :
    (∀ p ∈ rep, Spec.Writable e p) ∧
    x'.oxmsel = ((Spec.lastInt (b "oxmsel") rep).map Sec.toInt32).getD x.oxmsel ∧
    x'.sct = x.sct ∧
    x'.owned = (Spec.lastBool (b "owned") rep).getD x.owned ∧
    setId x.device (Spec.lastStr (b "deviceuuid") rep) = .ok x'.device ∧
    setId x.devowner (Spec.lastStr (b "devowneruuid") rep) = .ok x'.devowner ∧
    setId x.rowner (Spec.lastStr (b "rowneruuid") rep) = .ok x'.rowner := by
  rcases collect_spec e he ho rep ⟨none, none, none, none, none, none⟩ with ⟨h1, h2⟩ | ⟨h1, d, h2, h3⟩
  · rw [decode, h2, Out.bind] at h; simp at h
  · rw [decode, h2, Out.bind] at h
    obtain ⟨a1, a2, a3, a4, a5, a6⟩ := h3
    simp only [Option.or_none] at a1 a2 a3 a4 a6
    rw [← a1, ← a2, ← a3, ← a4, ← a6]
    refine ⟨h1, ?_⟩
    dsimp only at h
    unfold copy at h
    cases h4 : setId x.device d.device with
    | ub => rw [h4] at h; simp [Out.bind] at h
    | ok u1 =>
      cases h5 : setId x.devowner d.devowner with
      | ub => rw [h4, h5] at h; simp [Out.bind] at h
      | ok u2 =>
        cases h6 : setId x.rowner d.rowner with
        | ub => rw [h4, h5, h6] at h; simp [Out.bind] at h
        | ok u3 =>
          rw [h4, h5, h6] at h
          simp only [Out.bind, Out.ok.injEq, Prod.mk.injEq, true_and] at h
          subst h
          exact ⟨rfl, by rw [a5]; rfl, rfl, rfl, rfl, rfl⟩

/-- In particular: ownership and the owner are changed only in RFOTM by the
onboarding connection, the resource owner also in SRESET, the selected method only
in RFOTM by others, `sct` never. -/
theorem guarded (e : Env) (he : e.fromStorage = false) (ho : e.oxms.length ≤ 3) (rep : Rep) (x x' : Doxm) (ok : Bool)
    (h : decode e rep x = .ok (ok, x')) :
    x'.sct = x.sct ∧
    (x'.owned ≠ x.owned ∨ x'.devowner ≠ x.devowner ∨ x'.device ≠ x.device → e.dos = .rfotm ∧ e.doc = true) ∧
    (x'.rowner ≠ x.rowner → (e.dos = .rfotm ∨ e.dos = .sreset) ∧ e.doc = true) ∧
    (x'.oxmsel ≠ x.oxmsel → e.dos = .rfotm ∧ e.doc = false ∧ x'.oxmsel ∈ e.oxms) := by
  cases ok with
  | false => cases (refused e he ho rep x).2 x' h; simp
  | true =>
    obtain ⟨h1, h2, h3, h4, h5, h6, h7⟩ := accepted e he ho rep x x' h
    have hmem : ∀ {α : Type} (f : Val → Option α) k a, Spec.last f k rep = some a → ∃ v, (k, v) ∈ rep ∧ f v = some a := by
      intro α f k a hl
      obtain ⟨p, hp, hf⟩ := List.exists_of_findSome?_eq_some hl
      split at hf
      · rename_i hk
        exact ⟨p.2, by rw [← hk]; simpa using hp, hf⟩
      · cases hf
    refine ⟨h3, ?_, ?_, ?_⟩
    · rintro (hne | hne | hne)
      · cases hl : Spec.lastBool (b "owned") rep with
        | none => rw [hl] at h4; exact absurd h4 hne
        | some a =>
          obtain ⟨v, hv, -⟩ := hmem _ _ _ hl
          have := h1 _ hv
          generalize hk : b "owned" = k at this
          cases this with
          | owned _ a c => exact ⟨a, c⟩
          | oxmsel => exact absurd hk (by decide)
          | device => exact absurd hk (by decide)
          | devowner => exact absurd hk (by decide)
          | rowner => exact absurd hk (by decide)
      · cases hl : Spec.lastStr (b "devowneruuid") rep with
        | none => rw [hl] at h6; exact absurd (Out.ok.inj h6).symm hne
        | some a =>
          obtain ⟨v, hv, -⟩ := hmem _ _ _ hl
          have := h1 _ hv
          generalize hk : b "devowneruuid" = k at this
          cases this with
          | devowner _ a c => exact ⟨a, c⟩
          | oxmsel => exact absurd hk (by decide)
          | device => exact absurd hk (by decide)
          | owned => exact absurd hk (by decide)
          | rowner => exact absurd hk (by decide)
      · cases hl : Spec.lastStr (b "deviceuuid") rep with
        | none => rw [hl] at h5; exact absurd (Out.ok.inj h5).symm hne
        | some a =>
          obtain ⟨v, hv, -⟩ := hmem _ _ _ hl
          have := h1 _ hv
          generalize hk : b "deviceuuid" = k at this
          cases this with
          | device _ a c => exact ⟨a, c⟩
          | oxmsel => exact absurd hk (by decide)
          | devowner => exact absurd hk (by decide)
          | owned => exact absurd hk (by decide)
          | rowner => exact absurd hk (by decide)
    · intro hne
      cases hl : Spec.lastStr (b "rowneruuid") rep with
      | none => rw [hl] at h7; exact absurd (Out.ok.inj h7).symm hne
      | some a =>
        obtain ⟨v, hv, -⟩ := hmem _ _ _ hl
        have := h1 _ hv
        generalize hk : b "rowneruuid" = k at this
        cases this with
        | rowner _ a c => exact ⟨a, c⟩
        | oxmsel => exact absurd hk (by decide)
        | devowner => exact absurd hk (by decide)
        | owned => exact absurd hk (by decide)
        | device => exact absurd hk (by decide)
    · intro hne
      cases hl : Spec.lastInt (b "oxmsel") rep with
      | none => rw [hl] at h2; exact absurd h2 hne
      | some a =>
        obtain ⟨v, hv, hf⟩ := hmem _ _ _ hl
        have := h1 _ hv
        rw [hl] at h2
        generalize hk : b "oxmsel" = k at this
        cases this with
        | oxmsel i a c m =>
          simp only [Option.some.injEq] at hf
          subst hf
          exact ⟨a, c, by rw [h2]; exact m⟩
        | rowner => exact absurd hk (by decide)
        | devowner => exact absurd hk (by decide)
        | owned => exact absurd hk (by decide)
        | device => exact absurd hk (by decide)

/-- A well-formed uuid is taken over exactly. -/
theorem sets_owner (e : Env) (he : e.fromStorage = false) (ho : e.oxms.length ≤ 3) (rep : Rep) (x x' : Doxm)
    (h : decode e rep x = .ok (true, x')) (u : Id) (hu : u.length = 16)
    (hl : Spec.lastStr (b "devowneruuid") rep = some (Sec.uuidText u)) : x'.devowner = u := by
  have := (accepted e he ho rep x x' h).2.2.2.2.2.1
  rw [hl, setId, Sec.strToUuid_text _ _ hu] at this
  exact (Out.ok.inj this).symm

/-- An owner transfer. -/
def exEnv : Env := ⟨false, true, .rfotm, [0, 1]⟩

example : decode exEnv [(b "devowneruuid", .str (Sec.uuidText (List.replicate 16 7))), (b "owned", .bool true)]
    (setDefault 9 (List.replicate 16 1)) = .ok (true, ⟨4, 9, true, List.replicate 16 7, List.replicate 16 1, nilId⟩) := by
  decide +kernel

example : decode { exEnv with dos := .rfpro } [(b "owned", .bool false)] ⟨4, 9, true, List.replicate 16 7, List.replicate 16 1, nilId⟩ =
    .ok (false, ⟨4, 9, true, List.replicate 16 7, List.replicate 16 1, nilId⟩) := by decide +kernel

/-- The stored ownership data is found again after a restart (`int` values of the C
type; uuids of 16 bytes; the baseline properties of the resource are skipped). -/
theorem restart (e : Env) (he : e.fromStorage = true) (base : Rep) (hb : ∀ p ∈ base, isBaseline p.1 p.2 = true)
    (x x0 : Doxm) (h1 : x.device.length = 16) (h2 : x.devowner.length = 16) (h3 : x.rowner.length = 16)
    (hs : Sec.toInt32 x.oxmsel = x.oxmsel) (hc : Sec.toInt32 x.sct = x.sct) :
    decode e (encode base x) x0 = .ok (true, x) := by
  obtain ⟨fs, doc, dos, oxms⟩ := e
  dsimp only at he
  subst he
  have key : ∀ l d, collect ⟨true, doc, dos, oxms⟩ (base ++ l) d = collect ⟨true, doc, dos, oxms⟩ l d := by
    intro l d
    clear x x0 h1 h2 h3 hs hc
    induction base with
    | nil => rfl
    | cons p r ih =>
      obtain ⟨k, v⟩ := p
      have hp := hb _ (List.mem_cons_self ..)
      dsimp only at hp
      have hq : decodeProp ⟨true, doc, dos, oxms⟩ k v d = .ok (some d) := by
        unfold decodeProp; rw [if_pos (by simp [hp])]
      rw [List.cons_append, collect, hq, Out.bind]
      exact ih fun p hp => hb p (List.mem_cons_of_mem _ hp)
  rw [decode, encode, key]
  have w : ∀ l, writable ⟨true, doc, dos, oxms⟩ l = true := by intro l; simp [writable]
  have e1 : ∀ d, decodeProp ⟨true, doc, dos, oxms⟩ (b "oxmsel") (.int x.oxmsel) d = .ok (some { d with oxmsel := some x.oxmsel }) := by
    intro d
    rw [decodeProp, if_neg (by simp [isBaseline]), decodeInt, if_pos rfl, if_pos rfl, hs]
  have e2 : ∀ d, decodeProp ⟨true, doc, dos, oxms⟩ (b "sct") (.int x.sct) d = .ok (some { d with sct := some x.sct }) := by
    intro d
    rw [decodeProp, if_neg (by simp [isBaseline]), decodeInt, if_neg (by decide), if_pos rfl, if_pos rfl, hc]
  have e3 : ∀ d, decodeProp ⟨true, doc, dos, oxms⟩ (b "owned") (.bool x.owned) d = .ok (some { d with owned := some x.owned }) := by
    intro d
    rw [decodeProp, if_neg (by simp [isBaseline]), decodeBool, if_pos rfl, if_neg (by simp), if_neg (by simp)]
  have e4 : ∀ s d, decodeProp ⟨true, doc, dos, oxms⟩ (b "devowneruuid") (.str s) d = .ok (some { d with devowner := some s }) := by
    intro s d
    rw [decodeProp, if_neg (by simp [isBaseline]; decide), decodeStr, if_neg (by decide), if_pos rfl, w, if_pos rfl]
  have e5 : ∀ s d, decodeProp ⟨true, doc, dos, oxms⟩ (b "deviceuuid") (.str s) d = .ok (some { d with device := some s }) := by
    intro s d
    rw [decodeProp, if_neg (by simp [isBaseline]; decide), decodeStr, if_pos rfl, w, if_pos rfl]
  have e6 : ∀ s d, decodeProp ⟨true, doc, dos, oxms⟩ (b "rowneruuid") (.str s) d = .ok (some { d with rowner := some s }) := by
    intro s d
    rw [decodeProp, if_neg (by simp [isBaseline]; decide), decodeStr, if_neg (by decide), if_neg (by decide), if_pos rfl, w, if_pos rfl]
  simp only [collect, e1, e2, e3, e4, e5, e6, Out.bind, copy, setId, Sec.strToUuid_text _ _ h1, Sec.strToUuid_text _ _ h2,
    Sec.strToUuid_text _ _ h3, Option.getD]

example : Sec.toInt32 (setDefault 9 (List.replicate 16 1)).sct = 9 := by decide +kernel

/-- A malformed uuid in an accepted update becomes a truncated one. -/
theorem garbage_owner_false : decode exEnv [(b "devowneruuid", .str (b "12"))] (setDefault 9 (List.replicate 16 1)) =
    .ok (true, { setDefault 9 (List.replicate 16 1) with devowner := 0x12 :: List.replicate 15 0 }) := by decide +kernel

end Verif.Doxm
