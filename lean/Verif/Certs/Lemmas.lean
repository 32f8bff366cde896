import Verif.Certs.Spec
import Verif.Uuid.Props
import Verif.Rfc3339.Lemmas

/-! Lemmas for the properties of certificates. -/

namespace Verif.Certs

open Spec
open Verif.Rep (b)

theorem idFlag_and (v m : Nat) : (idFlag v &&& m ≠ 0) ↔ m.testBit (v - 1) = true := by
  unfold idFlag
  rw [Nat.one_shiftLeft, Nat.and_comm]
  constructor
  · intro h
    cases ht : m.testBit (v - 1) with
    | true => rfl
    | false =>
      exfalso; apply h
      apply Nat.eq_of_testBit_eq
      intro i
      rw [Nat.testBit_and, Nat.testBit_two_pow, Nat.zero_testBit]
      by_cases hi : v - 1 = i
      · subst hi; rw [ht]; rfl
      · rw [decide_eq_false hi, Bool.and_false]
  · intro h h0
    have := congrArg (fun x => Nat.testBit x (v - 1)) h0
    simp [Nat.testBit_two_pow, h] at this

theorem allowed_iff (m v : Nat) : (flagValue v &&& m != 0) = true ↔ Allowed m v := by
  unfold flagValue Allowed
  split
  · rename_i h
    rw [bne_iff_ne, idFlag_and]
    constructor
    · intro h'; exact ⟨by omega, by omega, h'⟩
    · intro h'; exact h'.2.2
  · rename_i h
    simp only [Nat.zero_and, bne_self_eq_false, Bool.false_eq_true, false_iff]
    intro h'; exact h ⟨by omega, by omega⟩

theorem ecdsa_iff {v : Nat} (_hv : v ≠ 0) : idFlag v &&& idFlag pkEcdsa ≠ 0 ↔ v = 4 := by
  rw [idFlag_and]
  unfold idFlag pkEcdsa
  rw [Nat.one_shiftLeft, Nat.testBit_two_pow]
  simp; omega

/-- Result of the common checks when the key is on an elliptic curve. -/
theorem v1_spec (cfg : Cfg) (c : Cert) (flags : Nat) {g : Nat} (hg : c.curve = some g) (hp : c.sigPk ≠ 0) :
    ∃ a f, v1Fields cfg c flags = .ok (a, f) ∧ (a = true ↔ Common cfg c) ∧
      (a = true → f = timeFlags c flags) ∧ (f = flags ∨ f = timeFlags c flags) := by
  unfold v1Fields
  by_cases h1 : mdAllowed cfg c.sigMd = true
  · rw [if_neg (by simp [h1])]
    by_cases h2 : c.version = 3
    · rw [if_neg (by simp [h2]), if_neg hp]
      by_cases h3 : c.sigPk = 4
      · rw [if_neg (by rw [h3]; decide)]
        rw [hg]
        refine ⟨_, _, rfl, ?_, fun _ => rfl, .inr rfl⟩
        constructor
        · intro h; exact ⟨(allowed_iff _ _).1 h1, h2, h3, g, hg, (allowed_iff _ _).1 h⟩
        · intro h
          obtain ⟨g', e, ha⟩ := h.key
          rw [hg, Option.some.injEq] at e; subst e
          exact (allowed_iff _ _).2 ha
      · rw [if_pos (Decidable.byContradiction fun hc => h3 ((ecdsa_iff hp).1 hc))]
        exact ⟨_, _, rfl, ⟨by simp, fun h => absurd h.sig h3⟩, by simp, .inr rfl⟩
    · rw [if_pos h2]
      exact ⟨_, _, rfl, ⟨by simp, fun h => absurd h.v3 h2⟩, by simp, .inl rfl⟩
  · rw [if_pos (by simp [h1])]
    exact ⟨_, _, rfl, ⟨by simp, fun h => absurd ((allowed_iff _ _).2 h.md) h1⟩, by simp, .inl rfl⟩

/-- Accepted implies compliant, without hypotheses. -/
theorem v1_sound {cfg : Cfg} {c : Cert} {flags f : Nat} (h : v1Fields cfg c flags = .ok (true, f)) :
    Common cfg c ∧ f = timeFlags c flags := by
  have hp : c.sigPk ≠ 0 := by
    intro hp
    unfold v1Fields at h
    split at h
    · cases h
    · split at h
      · cases h
      · simp only [hp, if_true] at h; cases h
  cases hg : c.curve with
  | none =>
    unfold v1Fields at h
    split at h
    · cases h
    · split at h
      · cases h
      · simp only [hp, if_false] at h
        split at h
        · cases h
        · rw [hg] at h; cases h
  | some g =>
    obtain ⟨a, f', e, i1, i2, _⟩ := v1_spec cfg c flags hg hp
    rw [e] at h
    simp only [Out.ok.injEq, Prod.mk.injEq] at h
    exact ⟨i1.1 h.1, h.2 ▸ i2 h.1⟩

theorem and_le_right' (a m : Nat) : a &&& m ≤ m := Nat.and_le_right

theorem ku_ca_iff (otm : Bool) (ku : Nat) :
    kuCa otm ku = true ↔ ku ∈ (if otm then [0x06, 0x86] else [0x04, 0x06, 0x84, 0x86]) := by
  have small : ∀ n < 0x87, ∀ o : Bool, kuCa o n = true ↔ n ∈ (if o then [0x06, 0x86] else [0x04, 0x06, 0x84, 0x86]) := by
    decide +kernel
  by_cases h : ku < 0x87
  · exact small ku h otm
  · constructor
    · intro hk
      exfalso
      unfold kuCa kuOk at hk
      rw [Bool.and_eq_true, beq_iff_eq, beq_iff_eq] at hk
      have := hk.2
      have hle := and_le_right' ku ((if otm then kuDs else kuDs ||| kuCrl) ||| (if otm then kuCs ||| kuCrl else kuCs))
      rw [this] at hle
      have : ((if otm then kuDs else kuDs ||| kuCrl) ||| (if otm then kuCs ||| kuCrl else kuCs)) = 0x86 := by
        cases otm <;> decide
      omega
    · intro hk
      exfalso; cases otm <;> simp at hk <;> omega

theorem ku_leaf_iff (ku : Nat) : kuOk ku (kuDs ||| kuKa) 0 = true ↔ ku = 0x88 := by
  have small : ∀ n < 0x89, kuOk n (kuDs ||| kuKa) 0 = true ↔ n = 0x88 := by decide +kernel
  by_cases h : ku < 0x89
  · exact small ku h
  · constructor
    · intro hk
      unfold kuOk at hk
      rw [Bool.and_eq_true, beq_iff_eq, beq_iff_eq] at hk
      have hle := and_le_right' ku (0 ||| (kuDs ||| kuKa))
      rw [hk.2] at hle
      have : (0 ||| (kuDs ||| kuKa)) = 0x88 := by decide
      omega
    · intro hk; omega

theorem caRest_iff (c : Cert) (root otm : Bool) (depth : Nat) :
    caRest c root otm depth = true ↔
      c.ku ∈ (if otm then [0x06, 0x86] else [0x04, 0x06, 0x84, 0x86]) ∧ c.ca = true ∧
      (∀ n, pathLimit c = some n → depth ≤ n + 1) ∧
      (otm = true → root = false → pathLimit c = some 0) := by
  rw [← ku_ca_iff]
  unfold caRest pathLimit
  by_cases h1 : kuCa otm c.ku = true
  · rw [if_neg (by simp [h1])]
    by_cases h2 : c.ca = true
    · rw [if_neg (by simp [h2])]
      by_cases h3 : c.maxPathlen ≠ 0 ∧ c.maxPathlen < depth
      · rw [if_pos h3]
        simp only [Bool.false_eq_true, false_iff]
        intro ⟨_, _, h, _⟩
        have := h (c.maxPathlen - 1) (by rw [if_neg h3.1])
        omega
      · rw [if_neg h3]
        have h3' : ∀ n, (if c.maxPathlen = 0 then none else some (c.maxPathlen - 1)) = some n → depth ≤ n + 1 := by
          intro n hn
          split at hn
          · cases hn
          · simp only [Option.some.injEq] at hn; omega
        by_cases h4 : otm = true ∧ ¬ root = true ∧ c.maxPathlen ≠ 1
        · rw [if_pos h4]
          simp only [Bool.false_eq_true, false_iff]
          intro ⟨_, _, _, h⟩
          have := h h4.1 (by simpa using h4.2.1)
          split at this
          · cases this
          · simp only [Option.some.injEq] at this; omega
        · rw [if_neg h4]
          simp only [true_iff]
          refine ⟨h1, h2, h3', ?_⟩
          intro ho hr
          have : c.maxPathlen = 1 := Decidable.byContradiction fun hc => h4 ⟨ho, by simp [hr], hc⟩
          rw [this]; rfl
    · rw [if_pos (by simp [h2])]
      simp [h2]
  · rw [if_pos (by simp [h1])]
    simp [h1]

theorem derLen_append {s : Bytes} {n : Nat} (h : derLen s = some n) (t : Bytes) : derLen (s ++ t) = some n := by
  match s with
  | [] => cases h
  | [x] => cases h
  | x :: m :: r =>
    unfold derLen at h ⊢
    simp only [List.cons_append] at *
    split at h
    · rename_i hm; rw [if_pos hm]; exact h
    · rename_i hm; rw [if_neg hm]
      split at h
      · rename_i hl
        rw [if_pos (by rw [List.length_append]; omega), List.take_append_of_le_length hl]
        exact h
      · cases h

/-- The comparison of names is one of lengths. -/
theorem self_spec {c : Cert} (hn : Names c) : selfIssued c = .ok (decide (c.issuer.length = c.subject.length)) := by
  unfold selfIssued
  by_cases h : c.issuer.length = c.subject.length
  · rw [if_pos h, decide_eq_true h]
  · rw [if_neg h, if_pos hn.inside, decide_eq_false h]
    congr 1
    rw [beq_eq_false_iff_ne]
    intro he
    have h1 : derLen (c.subject ++ c.after) = some c.subject.length := derLen_append hn.subject _
    have h2 : derLen (c.subject ++ c.after) = some c.issuer.length := by
      rw [← List.take_append_drop c.issuer.length (c.subject ++ c.after), ← he]
      exact derLen_append hn.issuer _
    rw [h1, Option.some.injEq] at h2
    exact h h2.symm

theorem hasEku_some {c : Cert} {l : List Bytes} (h : c.eku = some l) (o : Bytes) :
    hasEku c o = true ↔ o ∈ l ∨ oidAny ∈ l := by
  unfold hasEku
  rw [h]
  simp only [List.any_eq_true, Bool.or_eq_true, beq_iff_eq]
  constructor
  · rintro ⟨x, hx, rfl | rfl⟩
    · exact .inl hx
    · exact .inr hx
  · rintro (h | h)
    · exact ⟨_, h, .inl rfl⟩
    · exact ⟨_, h, .inr rfl⟩

theorem leaf_iff (c : Cert) (id no : Bytes) :
    (leafOk c && hasEku c id && !hasEku c no && !hasEku c oidAny) = true ↔
      c.ku = 0x88 ∧ c.ca = false ∧ pathLimit c = none ∧
      ∃ l, c.eku = some l ∧ oidServer ∈ l ∧ oidClient ∈ l ∧ id ∈ l ∧ no ∉ l ∧ oidAny ∉ l := by
  unfold leafOk pathLimit
  simp only [Bool.and_eq_true, ku_leaf_iff, Bool.not_eq_true', Bool.or_eq_false_iff, bne_eq_false_iff_eq]
  cases he : c.eku with
  | none => simp [hasEku, he]
  | some l =>
    have e := hasEku_some he
    have e' : ∀ o, hasEku c o = false ↔ o ∉ l ∧ oidAny ∉ l := by
      intro o
      rw [← Bool.not_eq_true, e]; exact not_or
    rw [e, e, e, e', e']
    constructor
    · rintro ⟨⟨⟨⟨⟨⟨h1, h2, h3⟩, h4⟩, h5⟩, h6⟩, h7⟩, h8⟩
      refine ⟨h1, h2, by rw [if_pos h3], l, rfl, ?_, ?_, ?_, h7.1, h7.2⟩
      · exact h4.resolve_right h7.2
      · exact h5.resolve_right h7.2
      · exact h6.resolve_right h7.2
    · rintro ⟨h1, h2, h3, l', hl, a1, a2, a3, a4, a5⟩
      simp only [Option.some.injEq] at hl; subst hl
      refine ⟨⟨⟨⟨⟨⟨h1, h2, ?_⟩, .inl a1⟩, .inl a2⟩, .inl a3⟩, a4, a5⟩, a5, a5⟩
      split at h3
      · assumption
      · cases h3

theorem timeFlags_zero {c : Cert} {f : Nat} (h : timeFlags c f = 0) : f = 0 ∧ InTime c := by
  unfold timeFlags at h
  dsimp only at h
  unfold InTime
  have or0 : ∀ a m : Nat, m ≠ 0 → a ||| m ≠ 0 := by
    intro a m hm h0
    exact hm (Nat.or_eq_zero_iff.1 h0).2
  split at h
  · exact absurd h (or0 _ _ (by decide))
  · rename_i hp
    split at h
    · exact absurd h (or0 _ _ (by decide))
    · rename_i hf
      exact ⟨h, by simpa using hf, by simpa using hp⟩

theorem timeFlags_inTime {c : Cert} (h : InTime c) (f : Nat) : timeFlags c f = f := by
  unfold timeFlags; rw [h.1, h.2]; rfl

end Verif.Certs
