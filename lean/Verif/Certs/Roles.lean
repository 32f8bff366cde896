import Verif.Certs.Handshake
import Verif.Rfc3339.Lemmas

/-! Properties of role certificates (C110) and of the times of certificates (C111). -/

namespace Verif.Certs

open Spec
open Verif.Rep (b)

/-! ### C110: roles -/

/-- The role of a certificate: common name of the first directoryName, with its
organizational unit or else the common name of the issuer as authority. -/
def Names_role (c : Cert) (r a : Bytes) : Prop :=
  ∃ pre dn post, c.sans = pre ++ .dir dn :: post ∧ (∀ x ∈ pre, x = .other) ∧ (oidCn, r) ∈ dn ∧
    ((oidOu, a) ∈ dn ∨ (∀ v, (oidOu, v) ∉ dn) ∧ firstOf oidCn c.issuerNames = some a)

theorem scanDn_spec : ∀ (l all : List (Bytes × Bytes)) (r a : Option Bytes), (∀ x ∈ l, x ∈ all) →
    (∀ v, r = some v → (oidCn, v) ∈ all) → (∀ v, a = some v → (oidOu, v) ∈ all) →
    (∀ v, (scanDn l r a).1 = some v → (oidCn, v) ∈ all) ∧ (∀ v, (scanDn l r a).2 = some v → (oidOu, v) ∈ all) ∧
    ((scanDn l r a).2 = none → a = none ∧ ∀ v, (oidOu, v) ∉ l)
  | [], all, r, a, _, h1, h2 => ⟨h1, h2, fun h => ⟨h, fun v hv => by cases hv⟩⟩
  | n :: l, all, r, a, hl, h1, h2 => by
    have hne : oidCn ≠ oidOu := by decide
    unfold scanDn
    split
    · rename_i h
      refine ⟨h1, h2, fun h3 => ?_⟩
      simp only at h3
      rw [h3] at h
      simp at h
    · split
      · rename_i hn
        have hm : (oidCn, n.2) ∈ all := by rw [← hn]; exact hl n (by simp)
        obtain ⟨k1, k2, k3⟩ := scanDn_spec l all (some n.2) a (fun x hx => hl x (by simp [hx]))
          (fun v hv => by cases hv; exact hm) h2
        refine ⟨k1, k2, fun h => ⟨(k3 h).1, fun v hv => ?_⟩⟩
        rcases List.mem_cons.1 hv with h' | h'
        · rw [← h'] at hn; exact hne hn.symm
        · exact (k3 h).2 v h'
      · split
        · rename_i hn
          have hm : (oidOu, n.2) ∈ all := by rw [← hn]; exact hl n (by simp)
          obtain ⟨k1, k2, k3⟩ := scanDn_spec l all r (some n.2) (fun x hx => hl x (by simp [hx]))
            h1 (fun v hv => by cases hv; exact hm)
          exact ⟨k1, k2, fun h => absurd (k3 h).1 (by simp)⟩
        · rename_i hn
          obtain ⟨k1, k2, k3⟩ := scanDn_spec l all r a (fun x hx => hl x (by simp [hx])) h1 h2
          refine ⟨k1, k2, fun h => ⟨(k3 h).1, fun v hv => ?_⟩⟩
          rcases List.mem_cons.1 hv with h' | h'
          · rw [← h'] at hn; exact hn rfl
          · exact (k3 h).2 v h'

theorem roleOf_spec {inn dn : List (Bytes × Bytes)} {r a : Bytes} (h : roleOf inn dn = some (r, a)) :
    (oidCn, r) ∈ dn ∧ ((oidOu, a) ∈ dn ∨ (∀ v, (oidOu, v) ∉ dn) ∧ firstOf oidCn inn = some a) := by
  obtain ⟨k1, k2, k3⟩ := scanDn_spec dn dn none none (fun _ h => h) (fun _ h => by cases h) (fun _ h => by cases h)
  unfold roleOf at h
  split at h
  · cases h
  · rename_i x y e
    rw [e] at k1 k2
    cases h
    exact ⟨k1 _ rfl, .inl (k2 _ rfl)⟩
  · rename_i x e
    rw [e] at k1 k3
    cases hf : firstOf oidCn inn with
    | none => rw [hf] at h; cases h
    | some y =>
      rw [hf] at h
      cases h
      exact ⟨k1 _ rfl, .inr ⟨(k3 rfl).2, rfl⟩⟩

theorem firstRole_spec {inn : List (Bytes × Bytes)} : ∀ {sans : List San} {r a : Bytes}, firstRole inn sans = some (r, a) →
    ∃ pre dn post, sans = pre ++ .dir dn :: post ∧ (∀ x ∈ pre, x = .other) ∧ (oidCn, r) ∈ dn ∧
      ((oidOu, a) ∈ dn ∨ (∀ v, (oidOu, v) ∉ dn) ∧ firstOf oidCn inn = some a)
  | [], _, _, h => by cases h
  | .bad :: _, _, _, h => by cases h
  | .other :: l, r, a, h => by
    obtain ⟨pre, dn, post, h1, h2, h3⟩ := firstRole_spec (sans := l) h
    refine ⟨.other :: pre, dn, post, by rw [h1]; rfl, ?_, h3⟩
    intro x hx
    rcases List.mem_cons.1 hx with h | h
    · exact h
    · exact h2 x h
  | .dir dn :: l, r, a, h => ⟨[], dn, l, rfl, fun x hx => (by cases hx), roleOf_spec h⟩

/-- Roles that are reserved: all that start with `oic.role.`, except for the role of the
owner. -/
def Reserved (r : Bytes) : Prop := b "oic.role." <+: r ∧ r ≠ b "oic.role.owner"

theorem assertable_iff (r : Bytes) : assertable r = true ↔ ¬ Reserved r := by
  unfold assertable Reserved
  split
  · rename_i h
    have := List.isPrefixOf_iff_prefix.1 h
    rw [beq_iff_eq]
    constructor
    · intro h1 h2; exact h2.2 h1
    · intro h1
      exact Decidable.byContradiction fun h2 => h1 ⟨this, h2⟩
  · rename_i h
    simp only [true_iff]
    intro h1
    exact h (List.isPrefixOf_iff_prefix.2 h1.1)

/-- What a client has to show to be given a role. -/
structure Entitled (env : RoleEnv) (client : Client) (usage : Usage) (c : Cert) (r a : Bytes) : Prop where
  usage : usage = .role
  cert : LeafOk env.cfg oidRole oidIdentity c
  time : InTime c
  signed : env.signed c (env.anchors.map (·.raw)) = true
  uuid : ∃ t, certUuid c = some t ∧ ∀ old, setUuid t old = .ok client.uuid
  role : Names_role c r a
  free : ¬ Reserved r

/-- C110: a client is given a role only for a valid role certificate that is signed by a
known CA, that names the client by its UUID and that names the role; roles in `oic.role.`
are not given, except for the one of the owner. If the key of the client is known and as
long as the one of the certificate, they are the same. -/
theorem assert_sound (env : RoleEnv) (client : Client) (usage : Usage) (c : Cert) (r a : Bytes) (hl : client.uuid.length = 16)
    (h : assertRole env client usage c = .ok (some (r, a))) :
    Entitled env client usage c r a ∧ ∃ key, c.pub = some key ∧
      (client.pub ≠ [] → client.pub.length = key.length → key = client.pub) := by
  unfold assertRole at h
  split at h
  · cases h
  · rename_i key hk
    split at h
    · cases h
    · rename_i hu
      obtain ⟨k, h1, h⟩ := obind h
      split at h
      · cases h
      · rename_i hk1
        split at h
        · cases h
        · rename_i hm
          obtain ⟨p, h2, h⟩ := obind h
          have hkm : client.pub ≠ [] → client.pub.length = key.length → key = client.pub := by
            intro hne hlen
            unfold keyMatches at h1
            rw [if_neg (by intro hz; exact hne (List.length_eq_zero_iff.1 hz)), if_neg (by omega), hlen, Nat.sub_self,
              List.drop_zero] at h1
            simp only [Out.ok.injEq] at h1
            rw [← h1] at hk1
            simpa using hk1
          split at h
          · cases h
          · rename_i ra
            simp only [Out.ok.injEq] at h
            split at h
            · rename_i has
              cases h
              unfold parseRole at h2
              obtain ⟨x, h3, h2⟩ := obind h2
              split at h2
              · cases h2
              · rename_i hx
                split at h2
                · cases h2
                · rename_i hs
                  simp only [Out.ok.injEq] at h2
                  have hx1 : x.1 = true := by
                    cases hq : x.1 with
                    | true => rfl
                    | false => exact absurd (.inl (by simp [hq])) hx
                  have hx2 : x.2 = 0 := Decidable.byContradiction fun hq => hx (.inr hq)
                  have e : x = (true, 0) := by rw [← hx1, ← hx2]
                  rw [e] at h3
                  obtain ⟨l1, l2⟩ := leaf_sound.2 h3
                  refine ⟨⟨Decidable.byContradiction hu, l1, (timeFlags_zero l2.symm).2, by simpa using hs, ?_,
                    firstRole_spec h2, (assertable_iff _).1 has⟩, key, hk, hkm⟩
                  unfold uuidMatches at hm
                  cases ht : certUuid c with
                  | none => rw [ht] at hm; simp at hm
                  | some t =>
                    rw [ht] at hm
                    cases hs' : Uuid.toStr client.uuid 37 with
                    | none => rw [hs'] at hm; simp at hm
                    | some s =>
                      rw [hs'] at hm
                      have : s = t := by simpa using hm
                      subst this
                      refine ⟨s, rfl, fun old => ?_⟩
                      obtain ⟨n, hn, _⟩ := Uuid.ofStr_toStr client.uuid hl 37 s hs'
                      unfold setUuid; rw [hn]; rfl
            · cases h

/-- C110 (partial: the UUID is written in lower case as the library does, and the key is the
one of the client): an entitled client is given the role. -/
theorem assert_partial (env : RoleEnv) (client : Client) (c : Cert) (r a t : Bytes)
    (hc : LeafOk env.cfg oidRole oidIdentity c) (ht : InTime c) (hs : env.signed c (env.anchors.map (·.raw)) = true)
    (hu : certUuid c = some t) (hu' : Uuid.toStr client.uuid 37 = some t) (hk : c.pub = some client.pub)
    (hr : firstRole c.issuerNames c.sans = some (r, a)) (hf : ¬ Reserved r) :
    assertRole env client .role c = .ok (some (r, a)) := by
  have hkm : keyMatches client client.pub = .ok true := by
    unfold keyMatches
    split
    · rfl
    · rw [if_neg (by omega), Nat.sub_self, List.drop_zero]; simp
  unfold assertRole
  rw [hk]
  simp only
  rw [if_neg (by simp), hkm]
  simp only [Out.bind]
  rw [if_neg (by simp), if_neg (by unfold uuidMatches; rw [hu, hu']; simp)]
  obtain ⟨g, hg, _⟩ := hc.common.key
  obtain ⟨_, ⟨x, f, e, i⟩⟩ := leaf_partial env.cfg c 0 hg (by rw [hc.common.sig]; decide)
  rw [i.2 hc] at e
  have hf' : f = 0 := by rw [(leaf_sound.2 e).2, timeFlags_inTime ht]
  unfold parseRole
  rw [e, hf']
  simp only [Out.bind]
  rw [if_neg (by simp), if_neg (by simp [hs]), hr]
  simp only
  rw [if_pos ((assertable_iff _).2 hf)]

/-- The environment of the examples: certificates are signed by the CA 65. -/
def renv (cas : List Ca) : RoleEnv := ⟨cfg0, cas, fun _ l => l.contains [65]⟩

/-- A client is given a role; another client, a reserved role, an expired certificate, an
identity certificate are refused. -/
example :
    assertRole (renv [⟨7, 0, .trustCa, wildcard, [65]⟩]) ⟨u1, [65]⟩ .role (roleC 65 (b "uuid:" ++ t1) (b "role1"))
      = .ok (some (b "role1", [65])) ∧
    assertRole (renv [⟨7, 0, .trustCa, wildcard, [65]⟩]) ⟨u2, [65]⟩ .role (roleC 65 (b "uuid:" ++ t1) (b "role1")) = .ok none ∧
    assertRole (renv [⟨7, 0, .trustCa, wildcard, [65]⟩]) ⟨u1, [66]⟩ .role (roleC 65 (b "uuid:" ++ t1) (b "role1")) = .ok none ∧
    assertRole (renv []) ⟨u1, [65]⟩ .role (roleC 65 (b "uuid:" ++ t1) (b "role1")) = .ok none ∧
    assertRole (renv [⟨7, 0, .trustCa, wildcard, [65]⟩]) ⟨u1, [65]⟩ .role (roleC 65 (b "uuid:" ++ t1) (b "oic.role.x")) = .ok none ∧
    assertRole (renv [⟨7, 0, .trustCa, wildcard, [65]⟩]) ⟨u1, [65]⟩ .role
      { roleC 65 (b "uuid:" ++ t1) (b "role1") with past := true } = .ok none ∧
    assertRole (renv [⟨7, 0, .trustCa, wildcard, [65]⟩]) ⟨u1, [65]⟩ .role (leafC 65 (b "uuid:" ++ t1)) = .ok none :=
  ⟨by decide +kernel, by decide +kernel, by decide +kernel, by decide +kernel, by decide +kernel, by decide +kernel, by decide +kernel⟩

/-- C110: a role certificate with a key longer than the one of the client makes the
comparison start before the key of the client; the certificate has not been checked at
this point. -/
theorem role_key_ub (env : RoleEnv) (client : Client) (c : Cert) (key : Bytes) (hk : c.pub = some key)
    (hl : 0 < client.pub.length) (hlt : client.pub.length < key.length) : assertRole env client .role c = .ub := by
  unfold assertRole keyMatches
  rw [hk]
  simp only
  rw [if_neg (by simp), if_neg (by omega), if_pos hlt]
  rfl

/-- Such a certificate. -/
example : assertRole (renv []) ⟨u1, [65]⟩ .role { leafC 65 [] with pub := some [1, 2] } = .ub := by decide

/-- C110 is false as stated: a role certificate signed by a CA of another device, or by a
CA of a manufacturer, gives the client the role of the owner. -/
theorem role_other_anchor_false :
    assertRole (renv [⟨7, 1, .mfgTrustCa, u2, [65]⟩]) ⟨u1, [65]⟩ .role (roleC 65 (b "uuid:" ++ t1) roleOwner)
      = .ok (some (roleOwner, [65])) := by decide +kernel

/-- C110 is false as stated: a UUID with upper case letters identifies the peer in the
handshake, but a role certificate with the same common name is refused. -/
theorem role_uppercase_false :
    certUuid (roleC 65 (b "uuid:FF010203-0405-0607-0809-0A0B0C0D0E0F") (b "role1"))
      = certUuid (leafC 65 (b "uuid:FF010203-0405-0607-0809-0A0B0C0D0E0F")) ∧
    (∃ t, certUuid (leafC 65 (b "uuid:FF010203-0405-0607-0809-0A0B0C0D0E0F")) = some t ∧
      setUuid t (List.replicate 16 0) = .ok u2) ∧
    assertRole (renv [⟨7, 0, .trustCa, wildcard, [65]⟩]) ⟨u2, [65]⟩ .role
      (roleC 65 (b "uuid:FF010203-0405-0607-0809-0A0B0C0D0E0F") (b "role1")) = .ok none := by
  refine ⟨by decide, ⟨b "FF010203-0405-0607-0809-0A0B0C0D0E0F", by decide, by decide⟩, by decide +kernel⟩

/-- C110: the permissions a client has by its roles: all of them if one of the roles is a
valid one of the owner, otherwise those of its valid roles; roles that have become
invalid give nothing and are removed. -/
theorem role_perms (cfg : Cfg) (perm : Held → Nat) : ∀ (l : List Held) (acc p : Nat) (l' : List Held),
    rolePerms cfg perm acc l = .ok (p, l') →
    ((∃ h ∈ l, Held.Valid cfg h ∧ h.role = b "oic.role.owner") → p = 31) ∧
    ((¬ ∃ h ∈ l, Held.Valid cfg h ∧ h.role = b "oic.role.owner") →
      (∀ i, p.testBit i = true ↔ acc.testBit i = true ∨ ∃ h ∈ l, Held.Valid cfg h ∧ (perm h).testBit i = true) ∧
      ∀ h, h ∈ l' ↔ h ∈ l ∧ Held.Valid cfg h) ∧
    (∀ h, h ∈ l → Held.Valid cfg h → h ∈ l') ∧ ∀ h, h ∈ l' → h ∈ l
  | [], acc, p, l', h => by
    unfold rolePerms at h
    cases h
    simp
  | x :: l, acc, p, l', h => by
    unfold rolePerms at h
    obtain ⟨v, h1, h⟩ := obind h
    have hv : (v.1 = true ∧ v.2 = 0) ↔ Held.Valid cfg x := by
      constructor
      · rintro ⟨a1, a2⟩
        have e : v = (true, 0) := by rw [← a1, ← a2]
        rw [e] at h1
        obtain ⟨l1, l2⟩ := leaf_sound.2 h1
        exact ⟨l1, (timeFlags_zero l2.symm).2⟩
      · rintro ⟨a1, a2⟩
        obtain ⟨g, hg, _⟩ := a1.common.key
        obtain ⟨_, ⟨y, f, e, i⟩⟩ := leaf_partial cfg x.cert 0 hg (by rw [a1.common.sig]; decide)
        rw [i.2 a1] at e
        have hf' : f = 0 := by rw [(leaf_sound.2 e).2, timeFlags_inTime a2]
        rw [e] at h1
        cases h1
        exact ⟨rfl, hf'⟩
    split at h
    · rename_i hc
      have hn : ¬ Held.Valid cfg x := by
        intro hx
        obtain ⟨b1, b2⟩ := hv.2 hx
        rcases hc with hc | hc
        · exact hc b1
        · exact hc b2
      obtain ⟨i1, i2, i3, i4⟩ := role_perms cfg perm l acc p l' h
      have hex : ∀ Q : Held → Prop, (∃ h ∈ x :: l, Held.Valid cfg h ∧ Q h) ↔ ∃ h ∈ l, Held.Valid cfg h ∧ Q h := by
        intro Q
        constructor
        · rintro ⟨h, c1, c2, c3⟩
          rcases List.mem_cons.1 c1 with rfl | c1
          · exact absurd c2 hn
          · exact ⟨h, c1, c2, c3⟩
        · rintro ⟨h, c1, c2⟩; exact ⟨h, List.mem_cons_of_mem _ c1, c2⟩
      refine ⟨fun hh => i1 ((hex _).1 hh), fun hh => ?_, fun h hm hvv => ?_, fun h hm => List.mem_cons_of_mem _ (i4 h hm)⟩
      · obtain ⟨j1, j2⟩ := i2 (fun hc => hh ((hex _).2 hc))
        refine ⟨fun i => by rw [hex]; exact j1 i, fun h => ?_⟩
        rw [j2]
        constructor
        · rintro ⟨c1, c2⟩; exact ⟨List.mem_cons_of_mem _ c1, c2⟩
        · rintro ⟨c1, c2⟩
          rcases List.mem_cons.1 c1 with rfl | c1
          · exact absurd c2 hn
          · exact ⟨c1, c2⟩
      · rcases List.mem_cons.1 hm with rfl | hm
        · exact absurd hvv hn
        · exact i3 h hm hvv
    · rename_i hc
      have hx : Held.Valid cfg x := by
        refine hv.1 ⟨?_, ?_⟩
        · cases hq : v.1 with
          | true => rfl
          | false => exact absurd (.inl (by simp [hq])) hc
        · exact Decidable.byContradiction fun hq => hc (.inr hq)
      split at h
      · rename_i ho
        cases h
        refine ⟨fun _ => rfl, fun hh => absurd ⟨x, by simp, hx, ho⟩ hh, fun h hm _ => hm, fun h hm => hm⟩
      · rename_i ho
        obtain ⟨y, h2, h⟩ := obind h
        cases h
        obtain ⟨i1, i2, i3, i4⟩ := role_perms cfg perm l (acc ||| perm x) y.1 y.2 h2
        refine ⟨?_, fun hh => ?_, fun h hm hvv => ?_, fun h hm => ?_⟩
        · rintro ⟨h, c1, c2, c3⟩
          rcases List.mem_cons.1 c1 with rfl | c1
          · exact absurd c3 ho
          · exact i1 ⟨h, c1, c2, c3⟩
        · obtain ⟨j1, j2⟩ := i2 (fun ⟨h, c1, c2⟩ => hh ⟨h, List.mem_cons_of_mem _ c1, c2⟩)
          refine ⟨fun i => ?_, fun h => ?_⟩
          · rw [j1, Nat.testBit_or, Bool.or_eq_true]
            constructor
            · rintro ((d | d) | ⟨h, c1, c2⟩)
              · exact .inl d
              · exact .inr ⟨x, by simp, hx, d⟩
              · exact .inr ⟨h, List.mem_cons_of_mem _ c1, c2⟩
            · rintro (d | ⟨h, c1, c2, c3⟩)
              · exact .inl (.inl d)
              · rcases List.mem_cons.1 c1 with rfl | c1
                · exact .inl (.inr c3)
                · exact .inr ⟨h, c1, c2, c3⟩
          · rw [List.mem_cons, List.mem_cons, j2]
            constructor
            · rintro (rfl | ⟨c1, c2⟩)
              · exact ⟨.inl rfl, hx⟩
              · exact ⟨.inr c1, c2⟩
            · rintro ⟨rfl | c1, c2⟩
              · exact .inl rfl
              · exact .inr ⟨c1, c2⟩
        · rcases List.mem_cons.1 hm with rfl | hm
          · exact List.mem_cons_self
          · exact List.mem_cons_of_mem _ (i3 h hm hvv)
        · rcases List.mem_cons.1 hm with rfl | hm
          · exact List.mem_cons_self
          · exact List.mem_cons_of_mem _ (i4 h hm)

/-- Two roles, one of which has expired; the owner. -/
example :
    rolePerms cfg0 (fun h => h.role.length) 0 [⟨roleC 65 [] [], [1, 2], []⟩, ⟨{ roleC 65 [] [] with past := true }, [1], []⟩]
      = .ok (2, [⟨roleC 65 [] [], [1, 2], []⟩]) ∧
    rolePerms cfg0 (fun h => h.role.length) 0 [⟨roleC 65 [] [], [1, 2], []⟩, ⟨roleC 65 [] [], roleOwner, []⟩]
      = .ok (31, [⟨roleC 65 [] [], [1, 2], []⟩, ⟨roleC 65 [] [], roleOwner, []⟩]) := by decide +kernel

/-! ### C111: times -/

open Verif.Rfc3339.Spec (dayNumber Date daysBeforeYear daysBeforeMonth)

theorem div_step (y k : Nat) (hy : 0 < y) : y / k = (y - 1) / k + (if y % k = 0 then 1 else 0) := by
  obtain ⟨n, rfl⟩ : ∃ n, y = n + 1 := ⟨y - 1, by omega⟩
  rw [Nat.add_sub_cancel, Nat.succ_div]
  congr 1
  simp only [Nat.dvd_iff_mod_eq_zero]

/-- The formula of the code, as an equation of natural numbers. -/
theorem days_closed (y Y q1 q2 q3 : Nat) (k1 : q1 = (y - 1968) / 4) (k2 : q2 = (y - 1900) / 100) (k3 : q3 = (y - 1600) / 400) (hy : 1970 ≤ y) (hc : Y + (y - 1) / 100 = 365 * (y - 1) + (y - 1) / 4 + (y - 1) / 400) :
    ((y : Int) + 0 - 1970) * 365 + q1 - q2 + q3
      = (Y : Int) - 719162 + (if y % 4 = 0 ∧ (y % 100 ≠ 0 ∨ y % 400 = 0) then 1 else 0) := by
  have d1 : y % 100 = 0 → y % 4 = 0 := by omega
  have d2 : y % 400 = 0 → y % 100 = 0 := by omega
  have hy0 : 0 < y := by omega
  have c1 := div_step y 4 hy0
  have c2 := div_step y 100 hy0
  have c3 := div_step y 400 hy0
  have a1 : (y - 1968) / 4 = y / 4 - 492 := by omega
  have a2 : (y - 1900) / 100 = y / 100 - 19 := Nat.sub_mul_div y 100 19
  have a3 : (y - 1600) / 400 = y / 400 - 4 := Nat.sub_mul_div y 400 4
  have b1 : 492 ≤ y / 4 := by omega
  have b2 : 19 ≤ y / 100 := by omega
  have b3 : 4 ≤ y / 400 := by omega
  rw [a1] at k1; rw [a2] at k2; rw [a3] at k3
  clear a1 a2 a3
  generalize y / 4 = z1 at *
  generalize y / 100 = z2 at *
  generalize y / 400 = z3 at *
  generalize (y - 1) / 4 = p1 at *
  generalize (y - 1) / 100 = p2 at *
  generalize (y - 1) / 400 = p3 at *
  generalize y % 4 = r1 at *
  generalize y % 100 = r2 at *
  generalize y % 400 = r3 at *
  by_cases h1 : r1 = 0
  · by_cases h2 : r2 = 0
    · by_cases h3 : r3 = 0
      · rw [if_pos h1] at c1; rw [if_pos h2] at c2; rw [if_pos h3] at c3; rw [if_pos ⟨h1, .inr h3⟩]; omega
      · rw [if_pos h1] at c1; rw [if_pos h2] at c2; rw [if_neg h3] at c3; rw [if_neg (by omega)]; omega
    · rw [if_pos h1] at c1; rw [if_neg h2] at c2; rw [if_neg (by omega)] at c3; rw [if_pos ⟨h1, .inl h2⟩]; omega
  · rw [if_neg h1] at c1; rw [if_neg (by omega)] at c2; rw [if_neg (by omega)] at c3; rw [if_neg (by omega)]; omega

/-- C111: the time of a certificate is converted to the seconds since 1970 by the Gregorian
calendar, for every time from 1970 on. -/
theorem unix_time (y m d h mi s : Nat) (hd : Date y m d) (hy : 1970 ≤ y) (hy2 : y ≤ 9999) (hh : h < 24) (hmi : mi < 60) (hs : s < 60) :
    unixTime ⟨y, m, d, h, mi, s⟩ = .ok ((dayNumber y m d - dayNumber 1970 1 1) * 86400 + h * 3600 + mi * 60 + s) := by
  obtain ⟨_, m1, m12, d1, dl⟩ := hd
  have hc := Verif.Rfc3339.dby_closed' (y - 1) y (by omega)
  have key : timeDays ⟨y, m, d, h, mi, s⟩ = .ok ((dayNumber y m d : Int) - 719163) := by
    have hoff : ∃ o : Nat, offsetAt ((m : Int) - 1) = .ok (o : Int) ∧
        daysBeforeMonth y m = o + (if 2 < m ∧ Verif.Rfc3339.Spec.leap y = true then 1 else 0) ∧ ((m : Int) - 1).tdiv 12 = 0 ∧
        ((m : Int) - 1).tmod 12 = m - 1 := by
      have : m = 1 ∨ m = 2 ∨ m = 3 ∨ m = 4 ∨ m = 5 ∨ m = 6 ∨ m = 7 ∨ m = 8 ∨ m = 9 ∨ m = 10 ∨ m = 11 ∨ m = 12 := by omega
      rcases this with rfl | rfl | rfl | rfl | rfl | rfl | rfl | rfl | rfl | rfl | rfl | rfl
      · exact ⟨0, by decide, by simp [daysBeforeMonth], by decide, by decide⟩
      · exact ⟨31, by decide, by simp [daysBeforeMonth, Verif.Rfc3339.Spec.monthLen], by decide, by decide⟩
      · exact ⟨59, by decide, by simp [daysBeforeMonth, Verif.Rfc3339.Spec.monthLen]; split <;> rfl, by decide, by decide⟩
      · exact ⟨90, by decide, by simp [daysBeforeMonth, Verif.Rfc3339.Spec.monthLen]; split <;> rfl, by decide, by decide⟩
      · exact ⟨120, by decide, by simp [daysBeforeMonth, Verif.Rfc3339.Spec.monthLen]; split <;> rfl, by decide, by decide⟩
      · exact ⟨151, by decide, by simp [daysBeforeMonth, Verif.Rfc3339.Spec.monthLen]; split <;> rfl, by decide, by decide⟩
      · exact ⟨181, by decide, by simp [daysBeforeMonth, Verif.Rfc3339.Spec.monthLen]; split <;> rfl, by decide, by decide⟩
      · exact ⟨212, by decide, by simp [daysBeforeMonth, Verif.Rfc3339.Spec.monthLen]; split <;> rfl, by decide, by decide⟩
      · exact ⟨243, by decide, by simp [daysBeforeMonth, Verif.Rfc3339.Spec.monthLen]; split <;> rfl, by decide, by decide⟩
      · exact ⟨273, by decide, by simp [daysBeforeMonth, Verif.Rfc3339.Spec.monthLen]; split <;> rfl, by decide, by decide⟩
      · exact ⟨304, by decide, by simp [daysBeforeMonth, Verif.Rfc3339.Spec.monthLen]; split <;> rfl, by decide, by decide⟩
      · exact ⟨334, by decide, by simp [daysBeforeMonth, Verif.Rfc3339.Spec.monthLen]; split <;> rfl, by decide, by decide⟩
    obtain ⟨o, ho1, ho2, ho3, ho4⟩ := hoff
    unfold timeDays
    simp only [ho3, ho4, ho1, Out.bind]
    obtain ⟨q1, s1, k1⟩ : ∃ q : Nat, ((y : Int) + 0 - 1968).tdiv 4 = q ∧ q = (y - 1968) / 4 :=
      ⟨_, by rw [Int.tdiv_eq_ediv_of_nonneg (by omega)]; omega, rfl⟩
    obtain ⟨q2, s2, k2⟩ : ∃ q : Nat, ((y : Int) + 0 - 1900).tdiv 100 = q ∧ q = (y - 1900) / 100 :=
      ⟨_, by rw [Int.tdiv_eq_ediv_of_nonneg (by omega)]; omega, rfl⟩
    obtain ⟨q3, s3, k3⟩ : ∃ q : Nat, ((y : Int) + 0 - 1600).tdiv 400 = q ∧ q = (y - 1600) / 400 :=
      ⟨_, by rw [Int.tdiv_eq_ediv_of_nonneg (by omega)]; omega, rfl⟩
    have r1 : ((y : Int) + 0).tmod 4 = (y % 4 : Nat) := by
      rw [Int.tmod_eq_emod_of_nonneg (by omega)]; omega
    have r2 : ((y : Int) + 0).tmod 100 = (y % 100 : Nat) := by
      rw [Int.tmod_eq_emod_of_nonneg (by omega)]; omega
    have r3 : ((y : Int) + 0).tmod 400 = (y % 400 : Nat) := by
      rw [Int.tmod_eq_emod_of_nonneg (by omega)]; omega
    rw [s1, s2, s3, r1, r2, r3]
    congr 1
    unfold dayNumber
    rw [ho2]
    have hl : Verif.Rfc3339.Spec.leap y = true ↔ (y % 4 = 0 ∧ (y % 100 ≠ 0 ∨ y % 400 = 0)) := by
      unfold Verif.Rfc3339.Spec.leap
      simp only [Bool.and_eq_true, Bool.or_eq_true, Bool.not_eq_true', decide_eq_true_iff, decide_eq_false_iff_not, Nat.dvd_iff_mod_eq_zero]
    have hdc := days_closed y _ q1 q2 q3 k1 k2 k3 hy hc
    generalize daysBeforeYear y = Y at *
    clear hc s1 s2 s3 r1 r2 r3 k1 k2 k3
    by_cases hly : Verif.Rfc3339.Spec.leap y = true
    · obtain ⟨e1, e2⟩ := hl.1 hly
      rw [if_pos ⟨e1, e2⟩] at hdc
      by_cases hm : 2 < m
      · rw [if_neg (by omega), if_pos ⟨hm, hly⟩]; omega
      · rw [if_pos ⟨by omega, by omega, by omega⟩, if_neg (fun h => hm h.1)]; omega
    · have hl' : ¬ (y % 4 = 0 ∧ (y % 100 ≠ 0 ∨ y % 400 = 0)) := fun h => hly (hl.2 h)
      rw [if_neg hl'] at hdc
      rw [if_neg (fun h => hl' ⟨by omega, by omega⟩), if_neg (fun h => hly h.2)]
      omega
  have hge : 719163 ≤ dayNumber y m d := by
    have g1 : (y - 1) / 100 ≤ 19 + (y - 1970) := by omega
    have g2 : 492 ≤ (y - 1) / 4 := by omega
    have g3 : 4 ≤ (y - 1) / 400 := by omega
    unfold dayNumber
    generalize daysBeforeYear y = Y at *
    generalize daysBeforeMonth y m = M at *
    omega
  have hle : dayNumber y m d ≤ 4000000 := by
    have hmon : daysBeforeMonth y m ≤ 366 := by
      have : m = 1 ∨ m = 2 ∨ m = 3 ∨ m = 4 ∨ m = 5 ∨ m = 6 ∨ m = 7 ∨ m = 8 ∨ m = 9 ∨ m = 10 ∨ m = 11 ∨ m = 12 := by omega
      rcases this with rfl | rfl | rfl | rfl | rfl | rfl | rfl | rfl | rfl | rfl | rfl | rfl <;>
        simp [daysBeforeMonth, Verif.Rfc3339.Spec.monthLen] <;> split <;> omega
    have hml : Verif.Rfc3339.Spec.monthLen y m ≤ 31 := by
      unfold Verif.Rfc3339.Spec.monthLen; split
      · split <;> omega
      · split <;> omega
    unfold dayNumber
    generalize daysBeforeYear y = Y at *
    generalize daysBeforeMonth y m = M at *
    omega
  unfold unixTime
  rw [key, Verif.Rfc3339.epoch_day]
  simp only [Out.bind]
  congr 1
  generalize dayNumber y m d = D at *
  rw [Int.emod_eq_of_lt (by omega) (by omega)]
  omega

/-- A time of a leap day, and one in a year that is not a leap year. -/
example : unixTime ⟨2024, 2, 29, 12, 0, 1⟩ = .ok 1709208001 ∧ unixTime ⟨2100, 3, 1, 0, 0, 0⟩ = .ok 4107542400 ∧
    Date 2024 2 29 := ⟨by decide, by decide, by decide, by decide, by decide, by decide, by decide⟩

/-- C111 is false as stated: for times before 1970 the result is wrong by a day in most
years, and it wraps around for all of them. The first day of 1967 is 1096 days before 1970,
the result is 1095 days. -/
theorem before_1970_false :
    unixTime ⟨1967, 1, 1, 0, 0, 0⟩ = .ok (18446744073709551616 - 1095 * 86400) ∧
    dayNumber 1970 1 1 = dayNumber 1967 1 1 + 1096 := by
  refine ⟨by decide, ?_⟩
  have h1 := Verif.Rfc3339.dby_closed' 1966 1967 rfl
  rw [Verif.Rfc3339.epoch_day]
  unfold dayNumber
  have h : daysBeforeMonth 1967 1 = 0 := by simp [daysBeforeMonth]
  rw [h]
  generalize daysBeforeYear 1967 = x at *
  omega

end Verif.Certs
