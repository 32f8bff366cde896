import Verif.Certs.Lemmas

/-! Properties of certificates (C106-C111). -/

namespace Verif.Certs

open Spec
open Verif.Rep (b)

/-! ### C106: certificates of CAs -/

/-- C106: whatever masks the application sets, SHA-256 and SHA-384 with the curves P-256 and
P-384 are the only algorithms that can be allowed, and each of them is allowed exactly if
its bit is set. -/
theorem allowed_algorithms (m k v : Nat) :
    (mdAllowed (setAllowed m k) v = true ↔ (v = 9 ∨ v = 10) ∧ m.testBit (v - 1) = true) ∧
    (curveAllowed (setAllowed m k) v = true ↔ (v = 3 ∨ v = 4) ∧ k.testBit (v - 1) = true) := by
  have key : ∀ x s : Nat, ∀ a, s = idFlag a ||| idFlag (a + 1) → 1 ≤ a → a + 1 < 32 →
      (Allowed (x &&& s) v ↔ (v = a ∨ v = a + 1) ∧ x.testBit (v - 1) = true) := by
    intro x s a hs h1 h2
    unfold Allowed
    rw [Nat.testBit_and, Bool.and_eq_true, hs]
    unfold idFlag
    rw [Nat.one_shiftLeft, Nat.one_shiftLeft, Nat.testBit_or, Nat.testBit_two_pow, Nat.testBit_two_pow,
      Bool.or_eq_true, decide_eq_true_iff, decide_eq_true_iff]
    constructor
    · rintro ⟨h3, h4, h5, h6⟩; exact ⟨by omega, h5⟩
    · rintro ⟨h3, h4⟩; exact ⟨by omega, by omega, h4, by omega⟩
  constructor
  · unfold mdAllowed; rw [allowed_iff]; exact key m _ 9 rfl (by decide) (by decide)
  · unfold curveAllowed; rw [allowed_iff]; exact key k _ 3 rfl (by decide) (by decide)

/-- After `oc_sec_certs_default`: SHA-256 and P-256 only. -/
example : mdAllowed (setAllowed (idFlag 9) (idFlag 3)) 9 = true ∧ mdAllowed (setAllowed (idFlag 9) (idFlag 3)) 10 = false ∧
    curveAllowed (setAllowed (idFlag 9) (idFlag 3)) 3 = true ∧
    mdAllowed (setAllowed 0xffffffff 0) 5 = false := by decide

/-- C106: a certificate that is accepted as one of a CA has version 3, an allowed signature
and key, `cA` set, the key usage of a CA and a path length that suffices for its depth; the
flags say if it is outside of its period of validity. -/
theorem ca_sound {cfg : Cfg} {c : Cert} {root otm : Bool} {depth flags f : Nat}
    (h : nonEndEntity cfg c root otm depth flags = .ok (true, f)) :
    CaBase cfg otm depth c ∧ f = timeFlags c flags := by
  unfold nonEndEntity at h
  cases hv : v1Fields cfg c flags with
  | ub => rw [hv] at h; cases h
  | ok x =>
    rw [hv] at h
    simp only [Out.bind] at h
    by_cases hx : x.1 = true
    · rw [if_neg (by simp [hx])] at h
      have e : x = (true, x.2) := by rw [← hx]
      rw [e] at hv
      obtain ⟨hc, hf⟩ := v1_sound hv
      cases hs : selfIssued c with
      | ub => rw [hs] at h; cases h
      | ok s =>
        rw [hs] at h
        simp only at h
        split at h
        · cases h
        · split at h
          · cases h
          · simp only [Out.ok.injEq, Prod.mk.injEq] at h
            obtain ⟨h1, h2, h3, _⟩ := (caRest_iff _ _ _ _).1 h.1
            exact ⟨⟨hc, h1, h2, h3⟩, h.2 ▸ hf⟩
    · rw [if_pos (by simp [hx])] at h
      simp only [Out.ok.injEq] at h
      rw [h] at hx; exact absurd rfl hx

/-- C106 (partial: names of the same length are the same, the names can be compared inside
the certificate, the key is on an elliptic curve): a certificate is accepted as root or as
intermediate CA exactly if it is one. -/
theorem ca_partial (cfg : Cfg) (c : Cert) (root otm : Bool) (depth flags : Nat) {g : Nat}
    (hg : c.curve = some g) (hp : c.sigPk ≠ 0) (hn : Names c) (hl : NamesByLength c) :
    ∃ a f, nonEndEntity cfg c root otm depth flags = .ok (a, f) ∧ (a = true ↔ CaOk cfg root otm depth c) ∧
      (f = flags ∨ f = timeFlags c flags) := by
  obtain ⟨a, f, e, i1, i2, i3⟩ := v1_spec cfg c flags hg hp
  unfold nonEndEntity
  rw [e]
  simp only [Out.bind]
  have hself : (c.issuer.length = c.subject.length) ↔ c.issuer = c.subject := ⟨hl, fun h => by rw [h]⟩
  by_cases ha : a = true
  · rw [if_neg (by simp [ha]), self_spec hn]
    simp only
    by_cases hs : c.issuer.length = c.subject.length
    · rw [decide_eq_true hs]
      cases root with
      | true =>
        rw [if_neg (by simp), if_neg (by simp)]
        refine ⟨_, f, rfl, ?_, i3⟩
        rw [caRest_iff]
        constructor
        · rintro ⟨h1, h2, h3, h4⟩
          exact ⟨⟨i1.1 ha, h1, h2, h3⟩, ⟨fun _ => hself.1 hs, fun _ => rfl⟩, h4⟩
        · intro h; exact ⟨h.usage, h.ca, h.path, h.tiers⟩
      | false =>
        rw [if_neg (by simp), if_pos (by simp)]
        refine ⟨_, f, rfl, ⟨by simp, fun h => ?_⟩, i3⟩
        exact absurd (h.self.2 (hself.1 hs)) (by simp)
    · rw [decide_eq_false hs]
      cases root with
      | true =>
        rw [if_pos (by simp)]
        refine ⟨_, f, rfl, ⟨by simp, fun h => ?_⟩, i3⟩
        exact absurd (hself.2 (h.self.1 rfl)) hs
      | false =>
        rw [if_neg (by simp), if_neg (by simp)]
        refine ⟨_, f, rfl, ?_, i3⟩
        rw [caRest_iff]
        constructor
        · rintro ⟨h1, h2, h3, h4⟩
          refine ⟨⟨i1.1 ha, h1, h2, h3⟩, ⟨fun h => (by cases h), fun h => absurd (hself.2 h) hs⟩, h4⟩
        · intro h; exact ⟨h.usage, h.ca, h.path, h.tiers⟩
  · rw [if_pos (by simp [ha])]
    exact ⟨a, f, rfl, ⟨fun h => absurd h ha, fun h => absurd (i1.2 h.common) ha⟩, i3⟩

/-- A name with a common name of one character. -/
def nm (x : UInt8) : Bytes := [0x30, 0x0c, 0x31, 0x0a, 0x30, 0x08, 0x06, 0x03, 0x55, 0x04, 0x03, 0x0c, 0x01, x]

/-- A name with a common name of two characters. -/
def nm2 (x : UInt8) : Bytes := [0x30, 0x0d, 0x31, 0x0b, 0x30, 0x09, 0x06, 0x03, 0x55, 0x04, 0x03, 0x0c, 0x02, x, x]

/-- The default configuration. -/
def cfg0 : Cfg := setAllowed (idFlag 9) (idFlag 3)

/-- A root CA. -/
def rootC (x : UInt8) : Cert where
  sigMd := 9
  sigPk := 4
  version := 3
  future := false
  past := false
  curve := some 3
  issuer := nm x
  subject := nm x
  after := List.replicate 91 0
  ku := 0x06
  ca := true
  maxPathlen := 0
  eku := none
  raw := [x]
  names := [(oidCn, [x])]
  issuerNames := [(oidCn, [x])]
  sans := []
  pub := some [x]

/-- An intermediate CA. -/
def interC (x : UInt8) : Cert := { rootC x with subject := nm2 x, raw := [x, 1], maxPathlen := 1 }

theorem rootC_names (x : UInt8) : Names (rootC x) ∧ NamesByLength (rootC x) :=
  ⟨⟨rfl, rfl, by simp [rootC]⟩, fun _ => rfl⟩

theorem interC_names (x : UInt8) : Names (interC x) ∧ NamesByLength (interC x) :=
  ⟨⟨rfl, rfl, by simp [interC, rootC, nm, nm2]⟩, fun h => by simp [interC, rootC, nm, nm2] at h⟩

theorem common0 {c : Cert} (h1 : c.sigMd = 9) (h2 : c.version = 3) (h3 : c.sigPk = 4) (h4 : c.curve = some 3) :
    Common cfg0 c :=
  ⟨⟨by omega, by omega, by rw [h1]; decide⟩, h2, h3, 3, h4, by decide, by decide, by decide⟩

theorem rootC_ok (x : UInt8) (otm : Bool) (d : Nat) : CaOk cfg0 true otm d (rootC x) :=
  ⟨⟨common0 rfl rfl rfl rfl, by cases otm <;> simp [rootC], rfl, fun n h => by cases h⟩, ⟨fun _ => rfl, fun _ => rfl⟩,
    fun _ h => by cases h⟩

theorem interC_ok (x : UInt8) (otm : Bool) : CaOk cfg0 false otm 1 (interC x) :=
  ⟨⟨common0 rfl rfl rfl rfl, by cases otm <;> simp [interC, rootC], rfl, fun n h => by
      simp [pathLimit, interC] at h; omega⟩,
    ⟨fun h => (by cases h), fun h => (by simp [interC, rootC, nm, nm2] at h)⟩, fun _ _ => rfl⟩

/-- A root and an intermediate CA meet the hypotheses and are accepted. -/
example : nonEndEntity cfg0 (rootC 65) true true 2 0 = .ok (true, 0) ∧
    nonEndEntity cfg0 (interC 65) false true 1 0 = .ok (true, 0) ∧
    nonEndEntity cfg0 (interC 65) false true 2 0 = .ok (false, 0) ∧
    nonEndEntity cfg0 { rootC 65 with ku := 0x46 } true false 2 0 = .ok (false, 0) ∧
    nonEndEntity cfg0 { rootC 65 with past := true } true false 2 0 = .ok (true, 1) := by decide

/-- C106 is false as stated: a CA with a name that has as many bytes as the name of the CA
that issued it is accepted as a root although it is not self-issued. -/
theorem root_false : nonEndEntity cfg0 { rootC 65 with issuer := nm 66 } true false 1 0 = .ok (true, 0) ∧
    ¬ CaOk cfg0 true false 1 { rootC 65 with issuer := nm 66 } := by
  refine ⟨by decide, fun h => ?_⟩
  have := h.self.1 rfl
  simp [rootC, nm] at this

/-- C106 is false as stated: an intermediate CA with a name that has as many bytes as the
name of its issuer is refused as an intermediate CA. -/
theorem intermediate_false :
    nonEndEntity cfg0 { interC 65 with subject := nm 66 } false false 1 0 = .ok (false, 0) ∧
    CaOk cfg0 false false 1 { interC 65 with subject := nm 66 } := by
  refine ⟨by decide, ⟨common0 rfl rfl rfl rfl, by decide, rfl, fun n h => ?_⟩, ⟨fun h => (by cases h), fun h => ?_⟩, fun h => (by cases h)⟩
  · simp [pathLimit, interC] at h; omega
  · simp [interC, rootC, nm] at h

/-- C106 is false as stated: while the ownership is transferred, an intermediate CA without
limit of the path length is accepted by the handshake (as a root) if its name has as many
bytes as the name of its issuer. -/
theorem tiers_false :
    verifyCa cfg0 [] true { interC 65 with subject := nm 66, maxPathlen := 0 } 2 ⟨none, [], none⟩ 0
      = .ok (true, 0, ⟨none, [], none⟩) ∧
    ¬ CaOk cfg0 true true 2 { interC 65 with subject := nm 66, maxPathlen := 0 } ∧
    ¬ CaOk cfg0 false true 2 { interC 65 with subject := nm 66, maxPathlen := 0 } := by
  refine ⟨by decide, fun h => ?_, fun h => ?_⟩
  · have := h.self.1 rfl
    simp [interC, rootC, nm] at this
  · have := h.tiers rfl rfl
    simp [pathLimit] at this

/-- C106: an issuer with a name that is longer than what follows in the certificate from
the subject on makes the comparison read beyond the certificate. -/
theorem issuer_ub : nonEndEntity cfg0 { rootC 65 with issuer := 0x30 :: 0x7f :: List.replicate 127 0 } true false 1 0 = .ub := by
  decide +kernel

/-- C106, C107: a certificate with an RSA key that is signed by ECDSA dereferences NULL, at
any place of the chain. The check is done for certificates of peers that are not trusted. -/
theorem rsa_key_ub (c : Cert) (cfg : Cfg) (flags : Nat) (root otm : Bool) (depth : Nat)
    (h1 : mdAllowed cfg c.sigMd = true) (h2 : c.version = 3) (h3 : c.sigPk = 4) (h4 : c.curve = none) :
    nonEndEntity cfg c root otm depth flags = .ub ∧ endEntity cfg c flags = .ub ∧ roleCert cfg c flags = .ub := by
  have h : v1Fields cfg c flags = .ub := by
    unfold v1Fields
    rw [if_neg (by simp [h1]), if_neg (by simp [h2]), if_neg (by omega), if_neg (by rw [h3]; decide), h4]
  unfold nonEndEntity endEntity roleCert
  rw [h]; exact ⟨rfl, rfl, rfl⟩

/-- Such a certificate. -/
example : endEntity cfg0 { rootC 65 with curve := none } 0 = .ub := by decide

/-! ### C107: certificates of devices and roles -/

/-- C107: a certificate of a device or of a role that is accepted is one. -/
theorem leaf_sound {cfg : Cfg} {c : Cert} {flags f : Nat} :
    (endEntity cfg c flags = .ok (true, f) → LeafOk cfg oidIdentity oidRole c ∧ f = timeFlags c flags) ∧
    (roleCert cfg c flags = .ok (true, f) → LeafOk cfg oidRole oidIdentity c ∧ f = timeFlags c flags) := by
  have comm : (leafOk c && !hasEku c oidIdentity && hasEku c oidRole && !hasEku c oidAny)
      = (leafOk c && hasEku c oidRole && !hasEku c oidIdentity && !hasEku c oidAny) := by
    cases leafOk c <;> cases hasEku c oidIdentity <;> cases hasEku c oidRole <;> rfl
  constructor
  · intro h
    unfold endEntity at h
    cases hv : v1Fields cfg c flags with
    | ub => rw [hv] at h; cases h
    | ok x =>
      rw [hv] at h
      simp only [Out.bind, Out.ok.injEq, Prod.mk.injEq] at h
      obtain ⟨h1, h2⟩ := h
      have hx : x.1 = true := by
        cases hx : x.1 with
        | true => rfl
        | false => rw [hx] at h1; simp at h1
      have e : x = (true, x.2) := by rw [← hx]
      rw [hx, Bool.true_and] at h1
      rw [e] at hv
      obtain ⟨hc, hf⟩ := v1_sound hv
      obtain ⟨a1, a2, a3, a4⟩ := (leaf_iff _ _ _).1 h1
      exact ⟨⟨hc, a1, a2, a3, a4⟩, h2 ▸ hf⟩
  · intro h
    unfold roleCert at h
    cases hv : v1Fields cfg c flags with
    | ub => rw [hv] at h; cases h
    | ok x =>
      rw [hv] at h
      simp only [Out.bind, Out.ok.injEq, Prod.mk.injEq] at h
      obtain ⟨h1, h2⟩ := h
      have hx : x.1 = true := by
        cases hx : x.1 with
        | true => rfl
        | false => rw [hx] at h1; simp at h1
      have e : x = (true, x.2) := by rw [← hx]
      rw [hx, Bool.true_and, comm] at h1
      rw [e] at hv
      obtain ⟨hc, hf⟩ := v1_sound hv
      obtain ⟨a1, a2, a3, a4⟩ := (leaf_iff _ _ _).1 h1
      exact ⟨⟨hc, a1, a2, a3, a4⟩, h2 ▸ hf⟩

/-- C107 (partial: the key is on an elliptic curve): a certificate of a device is accepted
exactly if it has version 3, allowed signature and key, exactly the key usages
digitalSignature and keyAgreement, is no CA, and lists serverAuth, clientAuth and the
identity OID but neither the role OID nor anyExtendedKeyUsage; the same holds for
certificates of roles with the OIDs exchanged. -/
theorem leaf_partial (cfg : Cfg) (c : Cert) (flags : Nat) {g : Nat} (hg : c.curve = some g) (hp : c.sigPk ≠ 0) :
    (∃ a f, endEntity cfg c flags = .ok (a, f) ∧ (a = true ↔ LeafOk cfg oidIdentity oidRole c)) ∧
    (∃ a f, roleCert cfg c flags = .ok (a, f) ∧ (a = true ↔ LeafOk cfg oidRole oidIdentity c)) := by
  obtain ⟨a, f, e, i1, _, _⟩ := v1_spec cfg c flags hg hp
  constructor
  · refine ⟨a && leafOk c && hasEku c oidIdentity && !hasEku c oidRole && !hasEku c oidAny, f, ?_, ?_⟩
    · unfold endEntity; rw [e]; rfl
    · constructor
      · intro h
        exact (leaf_sound (flags := flags) (f := f)).1 (by unfold endEntity; rw [e]; simp only [Out.bind]; rw [h]) |>.1
      · intro h
        have := (leaf_iff c oidIdentity oidRole).2 ⟨h.usage, h.notCa, h.path, h.eku⟩
        rw [i1.2 h.common, Bool.true_and]; exact this
  · refine ⟨a && leafOk c && !hasEku c oidIdentity && hasEku c oidRole && !hasEku c oidAny, f, ?_, ?_⟩
    · unfold roleCert; rw [e]; rfl
    · constructor
      · intro h
        exact (leaf_sound (flags := flags) (f := f)).2 (by unfold roleCert; rw [e]; simp only [Out.bind]; rw [h]) |>.1
      · intro h
        have := (leaf_iff c oidRole oidIdentity).2 ⟨h.usage, h.notCa, h.path, h.eku⟩
        rw [i1.2 h.common, Bool.true_and]
        simp only [Bool.and_eq_true] at this ⊢
        exact ⟨⟨⟨this.1.1.1, this.1.2⟩, this.1.1.2⟩, this.2⟩

/-- C107: no certificate is accepted both for a device and for a role. -/
theorem leaf_exclusive {cfg cfg' : Cfg} {c : Cert} {flags flags' f f' : Nat}
    (h : endEntity cfg c flags = .ok (true, f)) : roleCert cfg' c flags' ≠ .ok (true, f') := by
  intro h'
  obtain ⟨l, e, _, _, _, h1, _⟩ := (leaf_sound.1 h).1.eku
  obtain ⟨l', e', _, _, h2, _, _⟩ := (leaf_sound.2 h').1.eku
  rw [e, Option.some.injEq] at e'
  subst e'
  exact h1 h2

/-- The certificate of a device with the UUID `nm`. -/
def leafC (x : UInt8) (cn : Bytes) : Cert :=
  { rootC x with
    subject := nm2 x, raw := [x, 2], ku := 0x88, ca := false, maxPathlen := 0
    eku := some [oidClient, oidServer, oidIdentity], names := [(oidCn, cn)] }

/-- A certificate of a role. -/
def roleC (x : UInt8) (cn role : Bytes) : Cert :=
  { leafC x cn with eku := some [oidClient, oidRole, oidServer], sans := [.other, .dir [(oidCn, role)]] }

/-- Accepted; refused without usages, with a usage too many, with anyExtendedKeyUsage. -/
example : endEntity cfg0 (leafC 65 []) 0 = .ok (true, 0) ∧ roleCert cfg0 (roleC 65 [] []) 0 = .ok (true, 0) ∧
    endEntity cfg0 { leafC 65 [] with eku := none } 0 = .ok (false, 0) ∧
    endEntity cfg0 { leafC 65 [] with ku := 0xc8 } 0 = .ok (false, 0) ∧
    endEntity cfg0 { leafC 65 [] with eku := some [oidAny] } 0 = .ok (false, 0) ∧
    endEntity cfg0 (roleC 65 [] []) 0 = .ok (false, 0) := by decide

/-! ### C109: identity of a peer -/

theorem findPrefix_spec : ∀ (s : Bytes) (i : Nat),
    findPrefix s = some i ↔ uuidPrefix <+: s.drop i ∧ i < s.length ∧ ∀ j, j < i → ¬ uuidPrefix <+: s.drop j
  | [], i => by simp [findPrefix]
  | c :: r, i => by
    unfold findPrefix
    by_cases h : uuidPrefix.isPrefixOf (c :: r) = true
    · rw [if_pos h, Option.some.injEq]
      constructor
      · rintro rfl; exact ⟨List.isPrefixOf_iff_prefix.1 h, by simp, fun j hj => absurd hj (by omega)⟩
      · rintro ⟨h1, h2, h3⟩
        cases i with
        | zero => rfl
        | succ i => exact absurd (List.isPrefixOf_iff_prefix.1 h) (h3 0 (by omega))
    · rw [if_neg h]
      have h' : ¬ uuidPrefix <+: c :: r := fun hc => h (List.isPrefixOf_iff_prefix.2 hc)
      cases i with
      | zero =>
        constructor
        · intro hm
          cases hr : findPrefix r with
          | none => rw [hr] at hm; cases hm
          | some k => rw [hr] at hm; simp at hm
        · rintro ⟨h1, _⟩; exact absurd h1 h'
      | succ i =>
        have ih := findPrefix_spec r i
        constructor
        · intro hm
          cases hr : findPrefix r with
          | none => rw [hr] at hm; cases hm
          | some k =>
            rw [hr] at hm
            simp only [Option.map_some, Option.some.injEq, Nat.add_right_cancel_iff] at hm
            subst hm
            obtain ⟨a1, a2, a3⟩ := ih.1 hr
            refine ⟨a1, by simpa using a2, ?_⟩
            intro j hj
            cases j with
            | zero => exact h'
            | succ j => exact a3 j (by omega)
        · rintro ⟨h1, h2, h3⟩
          have := ih.2 ⟨h1, by simpa using h2, fun j hj => h3 (j + 1) (by omega)⟩
          rw [this]; rfl

/-- C109: the UUID of a common name is the text of 36 characters after the first `uuid:`,
and there is none if fewer characters follow. -/
theorem cn_uuid (val t : Bytes) : cnUuid val = some t ↔ FirstUuid val t := by
  have hu : uuidPrefix.length = 5 := by decide
  have hu' : uuidPrefix = b "uuid:" := rfl
  unfold FirstUuid
  rw [← hu']
  constructor
  · intro h
    unfold cnUuid at h
    split at h
    · rename_i hlen
      cases hf : findPrefix val with
      | none => rw [hf] at h; cases h
      | some i =>
        rw [hf] at h
        simp only at h
        split at h
        · cases h
        · rename_i hn
          simp only [Option.some.injEq] at h
          obtain ⟨⟨post, h1⟩, h2, h3⟩ := (findPrefix_spec val i).1 hf
          have hl : (val.drop i).length = val.length - i := List.length_drop
          rw [← h1, List.length_append, hu] at hl
          have hd : val.drop (i + uuidPrefix.length) = post := by
            rw [← List.drop_drop, ← h1, List.drop_left]
          refine ⟨?_, val.take i, post.drop 36, ?_, ?_⟩
          · rw [← h, List.length_take, List.length_drop]; omega
          · rw [← h, hd, List.append_assoc, List.append_assoc, List.take_append_drop, h1, List.take_append_drop]
          · intro j hj
            exact h3 j (by rw [List.length_take] at hj; omega)
    · cases h
  · rintro ⟨ht, pre, post, rfl, hj⟩
    have hp : findPrefix (pre ++ uuidPrefix ++ t ++ post) = some pre.length := by
      rw [findPrefix_spec]
      refine ⟨?_, ?_, hj⟩
      · rw [List.append_assoc, List.append_assoc, List.drop_left]
        exact List.prefix_append _ _
      · simp only [List.length_append]; omega
    unfold cnUuid
    rw [if_pos (by simp only [List.length_append]; omega), hp]
    simp only
    rw [if_neg (by simp only [List.length_append]; omega)]
    congr 1
    have : pre.length + uuidPrefix.length = (pre ++ uuidPrefix).length := by rw [List.length_append]
    rw [this, List.append_assoc (pre ++ uuidPrefix), List.drop_left, ← ht, List.take_left]

/-- C109: the name that the library writes for a UUID is read back as this UUID, except
for the wildcard. -/
theorem cn_round_trip (u old : Bytes) (cap : Nat) (hu : u.length = 16) (hw : u ≠ wildcard) (hc : 45 ≤ cap) :
    ∃ v t, encodeCn u cap = some (b "CN=" ++ v) ∧ cnUuid v = some t ∧ setUuid t old = .ok u := by
  obtain ⟨s, hs, hwf, hd⟩ := (Uuid.toStr_format u hu hw 37).1 (by omega)
  obtain ⟨n, hn, _⟩ := Uuid.ofStr_toStr u hu 37 s hs
  have hl : s.length = 36 := by
    obtain ⟨a, b', c, d, e, dash, _, rfl, h1, h2, h3, h4, h5, _⟩ := hwf
    simp [h1, h2, h3, h4, h5]
  refine ⟨b "uuid:" ++ s, s, ?_, ?_, ?_⟩
  · unfold encodeCn
    rw [if_neg (by omega), hs]
    rfl
  · rw [cn_uuid]
    exact ⟨hl, [], [], by simp, fun i hi => absurd hi (by simp)⟩
  · unfold setUuid; rw [hn]; rfl

/-- A UUID and its name. -/
example : encodeCn (List.range 16 |>.map UInt8.ofNat) 45 = some (b "CN=uuid:00010203-0405-0607-0809-0a0b0c0d0e0f") ∧
    encodeCn (List.range 16 |>.map UInt8.ofNat) 44 = none := by decide

/-- C109 is false as stated: the name written for the wildcard cannot be read back. -/
theorem wildcard_cn_false : encodeCn wildcard 45 = some (b "CN=uuid:*") ∧ cnUuid (b "uuid:*") = none := by decide

/-- C109 is false as stated: the text of the common name need not be a UUID. The result of
its conversion is not looked at, and the peer keeps the UUID of before (of a new peer: the
nil UUID). -/
theorem garbage_uuid_false :
    certUuid (leafC 65 (b "uuid:" ++ List.replicate 36 122)) = some (List.replicate 36 122) ∧
    setUuid (List.replicate 36 122) (List.replicate 16 0) = .ok (List.replicate 16 0) := by decide

/-- C109: a byte above 127 in the common name after `uuid:` calls `isalpha` with a negative
value. -/
theorem cn_ub : ∃ t, certUuid (leafC 65 (b "uuid:" ++ List.replicate 36 200)) = some t ∧
    setUuid t (List.replicate 16 0) = .ub := ⟨List.replicate 36 200, by decide, by decide⟩

/-! ### C108: handshakes -/

/-- A callback of the application that does not clear flags. -/
def Strict (user : User) : Prop := ∀ d c f, (user d c f).2 = 0 → f = 0

theorem default_strict : Strict defaultUser := fun _ _ _ h => h

theorem obind {α β : Type} {x : Out α} {f : α → Out β} {y : β} (h : x.bind f = .ok y) :
    ∃ a, x = .ok a ∧ f a = .ok y := by
  cases x with
  | ub => cases h
  | ok a => exact ⟨a, rfl, h⟩

theorem nee_flags {cfg : Cfg} {c : Cert} {root otm : Bool} {depth flags : Nat} {x : Bool × Nat}
    (h : nonEndEntity cfg c root otm depth flags = .ok x) : x.2 = flags ∨ x.2 = timeFlags c flags := by
  have hv : ∀ y, v1Fields cfg c flags = .ok y → y.2 = flags ∨ y.2 = timeFlags c flags := by
    intro y hy
    unfold v1Fields at hy
    split at hy
    · cases hy; exact .inl rfl
    · split at hy
      · cases hy; exact .inl rfl
      · dsimp only at hy
        split at hy
        · cases hy
        · split at hy
          · cases hy; exact .inr rfl
          · split at hy
            · cases hy
            · cases hy; exact .inr rfl
  unfold nonEndEntity at h
  obtain ⟨y, h1, h⟩ := obind h
  have := hv y h1
  split at h
  · cases h; exact this
  · obtain ⟨z, _, h⟩ := obind h
    split at h
    · cases h; exact this
    · split at h
      · cases h; exact this
      · cases h; exact this

/-- What is known of a certificate that has been accepted in a handshake. -/
theorem check_sound {env : Env} (hcl : env.cloud = false) {c : Cert} {depth f : Nat} {s s' : St}
    (h : checkOne env c depth f s = .ok (true, s')) :
    ∃ f', verifyPeer env.cfg env.cas env.otm c depth s f = .ok (true, f', s') ∧ (env.user depth c f').2 = 0 := by
  unfold checkOne tlsVerify at h
  rw [if_neg (by simp [hcl])] at h
  obtain ⟨x, h1, h⟩ := obind h
  split at h
  · rename_i hx
    simp only [Out.ok.injEq, Prod.mk.injEq] at h
    obtain ⟨h2, h3⟩ := h
    refine ⟨x.2.1, ?_, ?_⟩
    · rw [h1, ← hx, ← h3]
    · split at h2
      · cases h2
      · rename_i hz; exact Decidable.byContradiction hz
  · simp at h

theorem verifyCa_sound {cfg : Cfg} {cas : List Ca} {otm : Bool} {c : Cert} {depth : Nat} {s s' : St} {f f' : Nat}
    (h : verifyCa cfg cas otm c depth s f = .ok (true, f', s')) :
    CaBase cfg otm depth c ∧ (f' = 0 → f = 0 ∧ InTime c) ∧
    ((s' = noteRoot cas c s ∧ ∃ g, nonEndEntity cfg c true otm depth f = .ok (true, g)) ∨ s' = s) := by
  unfold verifyCa at h
  obtain ⟨x, h1, h⟩ := obind h
  split at h
  · rename_i hx
    simp only [Out.ok.injEq, Prod.mk.injEq] at h
    obtain ⟨_, h3, h4⟩ := h
    have e : x = (true, x.2) := by rw [← hx]
    rw [e] at h1
    obtain ⟨k1, k2⟩ := ca_sound h1
    refine ⟨k1, fun h0 => ?_, .inl ⟨h4.symm, _, h1⟩⟩
    rw [← h3, k2] at h0
    exact timeFlags_zero h0
  · obtain ⟨y, h2, h⟩ := obind h
    simp only [Out.ok.injEq, Prod.mk.injEq] at h
    obtain ⟨hy, h3, h4⟩ := h
    have e : y = (true, y.2) := by rw [← hy]
    rw [e] at h2
    obtain ⟨k1, k2⟩ := ca_sound h2
    refine ⟨k1, fun h0 => ?_, .inr h4.symm⟩
    rw [← h3, k2] at h0
    obtain ⟨h5, h6⟩ := timeFlags_zero h0
    refine ⟨?_, h6⟩
    rcases nee_flags h1 with h7 | h7
    · rw [← h7]; exact h5
    · rw [h7] at h5; exact (timeFlags_zero h5).1

theorem verifyLeaf_sound {cfg : Cfg} {cas : List Ca} {c : Cert} {s s' : St} {f f' : Nat}
    (h : verifyLeaf cfg cas c s f = .ok (true, f', s')) :
    LeafOk cfg oidIdentity oidRole c ∧ (f' = 0 → f = 0 ∧ InTime c) ∧
    s'.own = s.own ∧ peerUuid c s = .ok (some s'.uuid) ∧ c.pub = s'.pub ∧ s'.pub ≠ none ∧ authorised cas s' = .ok true := by
  unfold verifyLeaf at h
  obtain ⟨x, h1, h⟩ := obind h
  split at h
  · cases h
  · rename_i hx
    have hx : x.1 = true := by simpa using hx
    obtain ⟨u, h2, h⟩ := obind h
    split at h
    · cases h
    · split at h
      · cases h
      · rename_i k hk
        obtain ⟨a, h3, h⟩ := obind h
        simp only [Out.ok.injEq, Prod.mk.injEq] at h
        obtain ⟨h4, h5, h6⟩ := h
        have e : x = (true, x.2) := by rw [← hx]
        rw [e] at h1
        obtain ⟨k1, k2⟩ := leaf_sound.1 h1
        subst h6
        refine ⟨k1, fun h0 => ?_, rfl, h2, hk, by simp, by rw [h3, h4]⟩
        rw [← h5, k2] at h0
        exact timeFlags_zero h0

/-- C108: if a handshake with a device is accepted, every certificate of the chain has been
found good by mbedtls, is in its period of validity, and is one of a CA with a sufficient
path length or, the last one, one of a device (for an application whose callback does not
clear flags, as the default one). -/
theorem chain_checked (env : Env) (hcl : env.cloud = false) (hu : Strict env.user) :
    ∀ (chain : List (Cert × Nat)) (s s' : St), handshake env chain s = .ok (true, s') →
    ∀ i c f, chain[i]? = some (c, f) → f = 0 ∧ InTime c ∧
      (if i + 1 < chain.length then CaBase env.cfg env.otm (chain.length - 1 - i) c
       else LeafOk env.cfg oidIdentity oidRole c)
  | [], s, s', _, i, c, f, hi => by simp at hi
  | (c0, f0) :: l, s, s', h, i, c, f, hi => by
    unfold handshake at h
    obtain ⟨x, h1, h⟩ := obind h
    split at h
    · rename_i hx
      have e : x = (true, x.2) := by rw [← hx]
      rw [e] at h1
      cases i with
      | zero =>
        simp only [List.getElem?_cons_zero, Option.some.injEq, Prod.mk.injEq] at hi
        obtain ⟨rfl, rfl⟩ := hi
        obtain ⟨f', h2, h3⟩ := check_sound hcl h1
        have hf' := hu _ _ _ h3
        unfold verifyPeer at h2
        split at h2
        · rename_i hd
          obtain ⟨k1, k2, _⟩ := verifyCa_sound h2
          obtain ⟨k3, k4⟩ := k2 hf'
          refine ⟨k3, k4, ?_⟩
          rw [if_pos (by simp only [List.length_cons]; omega)]
          have : ((c0, f0) :: l).length - 1 - 0 = l.length := by simp
          rw [this]; exact k1
        · rename_i hd
          obtain ⟨k1, k2, _⟩ := verifyLeaf_sound h2
          obtain ⟨k3, k4⟩ := k2 hf'
          refine ⟨k3, k4, ?_⟩
          rw [if_neg (by simp only [List.length_cons]; omega)]
          exact k1
      | succ i =>
        simp only [List.getElem?_cons_succ] at hi
        obtain ⟨a1, a2, a3⟩ := chain_checked env hcl hu l x.2 s' h i c f hi
        refine ⟨a1, a2, ?_⟩
        by_cases hl : i + 1 < l.length
        · rw [if_pos hl] at a3
          rw [if_pos (by simp only [List.length_cons]; omega)]
          have : ((c0, f0) :: l).length - 1 - (i + 1) = l.length - 1 - i := by simp only [List.length_cons]; omega
          rw [this]; exact a3
        · rw [if_neg hl] at a3
          rw [if_neg (by simp only [List.length_cons]; omega)]
          exact a3
    · simp only [Out.ok.injEq] at h
      rename_i hx
      rw [h] at hx
      exact absurd rfl hx

theorem noteRoot_uuid (cas : List Ca) (c : Cert) (s : St) : (noteRoot cas c s).uuid = s.uuid := by
  unfold noteRoot
  split
  · rfl
  · split
    · split <;> rfl
    · rfl

/-- The own certificate keeps device and usage; its `ctx` is as before or a CA with the
bytes of the certificate. -/
theorem noteRoot_own {cas : List Ca} {c : Cert} {s : St} {o : Own} (h : s.own = some o) :
    ∃ ctx, (noteRoot cas c s).own = some { o with ctx := ctx } ∧
      (ctx = o.ctx ∨ ∃ a ∈ cas, ctx = some a.addr ∧ a.raw = c.raw ∧ a.device = o.device ∧ a.usage = .trustCa) := by
  unfold noteRoot
  rw [h]
  simp only
  split
  · split
    · exact ⟨o.ctx, h, .inl rfl⟩
    · rename_i a ha
      refine ⟨some a.addr, rfl, .inr ⟨a, List.mem_of_find?_eq_some ha, rfl, ?_⟩⟩
      have := List.find?_some ha
      simp only [Bool.and_eq_true, beq_iff_eq] at this
      exact ⟨this.2.symm, this.1.1, this.1.2⟩
  · exact ⟨o.ctx, h, .inl rfl⟩

theorem authorise_only {d : Nat} {root uuid : Bytes} : ∀ {cas : List Ca},
    (∀ a ∈ cas, a.device = d ∧ a.usage = .trustCa) → authorise d root uuid cas = true →
    ∃ a ∈ cas, a.raw = root ∧ Authorises d uuid a
  | [], _, h => by cases h
  | a :: l, hc, h => by
    unfold authorise at h
    have ha := hc a (by simp)
    rw [if_neg (by simp [ha])] at h
    split at h
    · obtain ⟨x, h1, h2⟩ := authorise_only (fun y hy => hc y (by simp [hy])) h
      exact ⟨x, by simp [h1], h2⟩
    · rename_i hr
      split at h
      · rename_i hs
        exact ⟨a, by simp, Decidable.byContradiction hr, ha.1, ha.2, hs⟩
      · obtain ⟨x, h1, h2⟩ := authorise_only (fun y hy => hc y (by simp [hy])) h
        exact ⟨x, by simp [h1], h2⟩

theorem authorise_mem {d : Nat} {root uuid : Bytes} {x : Ca} (hx : Authorises d uuid x) (hr : x.raw = root) :
    ∀ {cas : List Ca}, x ∈ cas → authorise d root uuid cas = true
  | [], h => by cases h
  | a :: l, h => by
    unfold authorise
    split
    · rfl
    · split
      · rename_i h1 h2
        rcases List.mem_cons.1 h with rfl | h
        · exact absurd hr h2
        · exact authorise_mem hx hr h
      · split
        · rfl
        · rename_i h3
          rcases List.mem_cons.1 h with rfl | h
          · exact absurd hx.2.2 h3
          · exact authorise_mem hx hr h

theorem find_addr {cas : List Ca} (hn : (cas.map (·.addr)).Nodup) {a : Ca} (ha : a ∈ cas) :
    cas.find? (fun x => x.addr == a.addr) = some a := by
  induction cas with
  | nil => cases ha
  | cons x l ih =>
    rw [List.map_cons, List.nodup_cons] at hn
    rw [List.find?_cons]
    rcases List.mem_cons.1 ha with rfl | ha
    · simp
    · have : (x.addr == a.addr) = false := by
        rw [beq_eq_false_iff_ne]
        intro he
        exact hn.1 (he ▸ List.mem_map.2 ⟨a, ha, rfl⟩)
      rw [this]
      exact ih hn.2 ha

theorem handshake_authorised (env : Env) (d : Nat) (hcl : env.cloud = false)
    (hca : ∀ a ∈ env.cas, a.device = d ∧ a.usage = .trustCa) (hn : (env.cas.map (·.addr)).Nodup) :
    ∀ (chain : List (Cert × Nat)) (s s' : St) (seen : List Cert) (o : Own),
    s.own = some o → o.device = d → o.usage = .identity →
    (o.ctx = none ∨ ∃ a ∈ env.cas, o.ctx = some a.addr ∧ a.raw ∈ seen.map (·.raw)) →
    chain ≠ [] → handshake env chain s = .ok (true, s') →
    ∃ a ∈ env.cas, Authorises d s'.uuid a ∧ a.raw ∈ (seen ++ chain.dropLast.map (·.1)).map (·.raw)
  | [], _, _, _, _, _, _, _, _, h, _ => absurd rfl h
  | (c, f) :: l, s, s', seen, o, ho, hd, hus, hctx, _, h => by
    unfold handshake at h
    obtain ⟨x, h1, h⟩ := obind h
    split at h
    · rename_i hx
      have e : x = (true, x.2) := by rw [← hx]
      rw [e] at h1
      obtain ⟨f', h2, _⟩ := check_sound hcl h1
      unfold verifyPeer at h2
      split at h2
      · rename_i hl
        have hne : l ≠ [] := by intro hc; rw [hc] at hl; simp at hl
        have hdl : ((c, f) :: l).dropLast = (c, f) :: l.dropLast := by
          cases l with
          | nil => exact absurd rfl hne
          | cons y l => rfl
        have hseen : ∀ b : Bytes, b ∈ ((seen ++ [c]) ++ l.dropLast.map (·.1)).map (·.raw) →
            b ∈ (seen ++ ((c, f) :: l).dropLast.map (·.1)).map (·.raw) := by
          intro b hb; rw [hdl]; simpa using hb
        obtain ⟨_, _, h3⟩ := verifyCa_sound h2
        rcases h3 with ⟨h3, _⟩ | h3
        · obtain ⟨ctx, h4, h5⟩ := noteRoot_own (cas := env.cas) (c := c) ho
          have hc' : (ctx = none ∨ ∃ a ∈ env.cas, ctx = some a.addr ∧ a.raw ∈ (seen ++ [c]).map (·.raw)) := by
            rcases h5 with h5 | ⟨a, h5, h6, h7, _⟩
            · rw [h5]
              rcases hctx with h | ⟨a, h6, h7, h8⟩
              · exact .inl h
              · exact .inr ⟨a, h6, h7, by rw [List.map_append]; exact List.mem_append_left _ h8⟩
            · exact .inr ⟨a, h5, h6, by rw [h7]; simp⟩
          obtain ⟨a, k1, k2, k3⟩ := handshake_authorised env d hcl hca hn l x.2 s' (seen ++ [c]) { o with ctx := ctx }
            (by rw [h3, h4]) hd hus hc' hne h
          exact ⟨a, k1, k2, hseen _ k3⟩
        · have hc' : (o.ctx = none ∨ ∃ a ∈ env.cas, o.ctx = some a.addr ∧ a.raw ∈ (seen ++ [c]).map (·.raw)) := by
            rcases hctx with h | ⟨a, h6, h7, h8⟩
            · exact .inl h
            · exact .inr ⟨a, h6, h7, by rw [List.map_append]; exact List.mem_append_left _ h8⟩
          obtain ⟨a, k1, k2, k3⟩ := handshake_authorised env d hcl hca hn l x.2 s' (seen ++ [c]) o
            (by rw [h3, ho]) hd hus hc' hne h
          exact ⟨a, k1, k2, hseen _ k3⟩
      · rename_i hl
        have hnil : l = [] := List.length_eq_zero_iff.1 (by omega)
        subst hnil
        unfold handshake at h
        simp only [Out.ok.injEq, Prod.mk.injEq, true_and] at h
        obtain ⟨_, _, k1, _, _, _, k2⟩ := verifyLeaf_sound h2
        rw [h] at k1 k2
        unfold authorised at k2
        rw [k1, ho] at k2
        simp only [hus] at k2
        rw [if_neg (by simp)] at k2
        rcases hctx with hc | ⟨a, ha, hc, hs⟩
        · rw [hc] at k2; cases k2
        · rw [hc] at k2
          simp only at k2
          rw [find_addr hn ha] at k2
          simp only [Out.ok.injEq] at k2
          rw [hd] at k2
          obtain ⟨y, y1, y2, y3⟩ := authorise_only hca k2
          exact ⟨y, y1, y3, by rw [y2]; simpa using hs⟩
    · simp only [Out.ok.injEq] at h
      rename_i hx
      rw [h] at hx
      exact absurd rfl hx

/-- C108 (partial: all CAs known to the stack are trusted CAs of this device, and the own
certificate has not been used in a handshake before): a peer is accepted with the identity
certificate of the device only if a CA of its chain is a trusted CA of the device whose
credential names the peer or everybody. -/
theorem authorised_partial (env : Env) (d : Nat) (chain : List (Cert × Nat)) (u0 : Bytes) (k0 : Option Bytes) (s' : St)
    (hcl : env.cloud = false) (hca : ∀ a ∈ env.cas, a.device = d ∧ a.usage = .trustCa)
    (hn : (env.cas.map (·.addr)).Nodup) (hne : chain ≠ [])
    (h : handshake env chain ⟨some ⟨d, .identity, none⟩, u0, k0⟩ = .ok (true, s')) :
    ∃ a ∈ env.cas, Authorises d s'.uuid a ∧ a.raw ∈ (chain.dropLast.map (·.1)).map (·.raw) := by
  have := handshake_authorised env d hcl hca hn chain ⟨some ⟨d, .identity, none⟩, u0, k0⟩ s' [] ⟨d, .identity, none⟩ rfl rfl rfl (.inl rfl) hne h
  simpa using this

/-- C108: the identity and the key of an accepted peer are the ones of the last certificate
of its chain. -/
theorem identity_of_leaf (env : Env) (hcl : env.cloud = false) (c : Cert) (f : Nat) (t u : Bytes) :
    ∀ (pre : List (Cert × Nat)) (s s' : St), handshake env (pre ++ [(c, f)]) s = .ok (true, s') →
    certUuid c = some t → setUuid t s.uuid = .ok u → s'.uuid = u ∧ s'.pub = c.pub ∧ s'.pub ≠ none
  | [], s, s', h, ht, hs => by
    simp only [List.nil_append] at h
    unfold handshake at h
    obtain ⟨x, h1, h⟩ := obind h
    split at h
    · rename_i hx
      have e : x = (true, x.2) := by rw [← hx]
      rw [e] at h1
      obtain ⟨f', h2, _⟩ := check_sound hcl h1
      unfold verifyPeer at h2
      rw [if_neg (by simp)] at h2
      unfold handshake at h
      simp only [Out.ok.injEq, Prod.mk.injEq, true_and] at h
      obtain ⟨_, _, _, k1, k2, k3, _⟩ := verifyLeaf_sound h2
      rw [h] at k1 k2 k3
      unfold peerUuid at k1
      rw [ht] at k1
      simp only [hs, Out.bind, Out.ok.injEq, Option.some.injEq] at k1
      exact ⟨k1.symm, k2.symm, k3⟩
    · simp only [Out.ok.injEq] at h
      rename_i hx
      rw [h] at hx
      exact absurd rfl hx
  | (c0, f0) :: pre, s, s', h, ht, hs => by
    rw [List.cons_append] at h
    unfold handshake at h
    obtain ⟨x, h1, h⟩ := obind h
    split at h
    · rename_i hx
      have e : x = (true, x.2) := by rw [← hx]
      rw [e] at h1
      obtain ⟨f', h2, _⟩ := check_sound hcl h1
      unfold verifyPeer at h2
      rw [if_pos (by simp only [List.length_append, List.length_cons]; omega)] at h2
      obtain ⟨_, _, h3⟩ := verifyCa_sound h2
      have hu : x.2.uuid = s.uuid := by
        rcases h3 with ⟨h3, _⟩ | h3
        · rw [h3]; exact noteRoot_uuid _ _ _
        · rw [h3]
      exact identity_of_leaf env hcl c f t u pre x.2 s' h ht (by rw [hu]; exact hs)
    · simp only [Out.ok.injEq] at h
      rename_i hx
      rw [h] at hx
      exact absurd rfl hx

end Verif.Certs
