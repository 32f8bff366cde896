import Verif.Certs.Props

/-! Handshakes that are accepted, and where C108 is false of the code. -/

namespace Verif.Certs

open Spec
open Verif.Rep (b)

theorem nee_ok {cfg : Cfg} {c : Cert} {root otm : Bool} {depth : Nat} (hok : CaOk cfg root otm depth c) (hn : Names c)
    (hl : NamesByLength c) (ht : InTime c) : nonEndEntity cfg c root otm depth 0 = .ok (true, 0) := by
  obtain ⟨g, hg, _⟩ := hok.common.key
  obtain ⟨a, f, e, i1, i2⟩ := ca_partial cfg c root otm depth 0 hg (by rw [hok.common.sig]; decide) hn hl
  rw [e, i1.2 hok]
  rcases i2 with rfl | rfl
  · rfl
  · rw [timeFlags_inTime ht]

theorem nee_refused {cfg : Cfg} {c : Cert} {otm : Bool} {depth : Nat} (hok : CaOk cfg false otm depth c) (hn : Names c)
    (hl : NamesByLength c) (ht : InTime c) : nonEndEntity cfg c true otm depth 0 = .ok (false, 0) := by
  obtain ⟨g, hg, _⟩ := hok.common.key
  obtain ⟨a, f, e, i1, i2⟩ := ca_partial cfg c true otm depth 0 hg (by rw [hok.common.sig]; decide) hn hl
  have ha : a = false := by
    cases a with
    | false => rfl
    | true => exact absurd (hok.self.2 ((i1.1 rfl).self.1 rfl)) (by simp)
  rw [e, ha]
  rcases i2 with rfl | rfl
  · rfl
  · rw [timeFlags_inTime ht]

/-- Intermediate CAs from the root down; what follows them is the certificate of the
device. -/
def Inters (cfg : Cfg) (otm : Bool) : List Cert → Prop
  | [] => True
  | c :: l => CaOk cfg false otm (l.length + 1) c ∧ Names c ∧ NamesByLength c ∧ InTime c ∧ Inters cfg otm l

theorem check_default {env : Env} (hcl : env.cloud = false) (hu : env.user = defaultUser) {c : Cert} {depth : Nat} {s s' : St}
    (h : verifyPeer env.cfg env.cas env.otm c depth s 0 = .ok (true, 0, s')) :
    checkOne env c depth 0 s = .ok (true, s') := by
  unfold checkOne tlsVerify
  rw [if_neg (by simp [hcl]), h, hu]
  rfl

theorem inters_pass {env : Env} (hcl : env.cloud = false) (hu : env.user = defaultUser) (leaf : Cert × Nat) (s : St) :
    ∀ (l : List Cert), Inters env.cfg env.otm l →
    handshake env (l.map (fun c => (c, 0)) ++ [leaf]) s = handshake env [leaf] s
  | [], _ => rfl
  | c :: l, h => by
    obtain ⟨h1, h2, h3, h4, h5⟩ := h
    rw [List.map_cons, List.cons_append, handshake.eq_2]
    have hlen : (l.map (fun c => (c, 0)) ++ [leaf]).length = l.length + 1 := by simp
    rw [hlen, check_default hcl hu (s' := s)]
    · simp only [Out.bind, if_true]
      exact inters_pass hcl hu leaf s l h5
    · unfold verifyPeer verifyCa
      rw [if_pos (by omega), nee_refused h1 h2 h3 h4]
      simp only [Out.bind]
      rw [if_neg (by simp), nee_ok h1 h2 h3 h4]

/-- C108: a peer with a proper chain (a root, intermediate CAs, the certificate of a device
that names a UUID, all valid and found good by mbedtls) is accepted, if the root is a
trusted CA of the device whose credential names this UUID or everybody. Afterwards the peer
has this UUID. -/
theorem accepted (env : Env) (d : Nat) (root leaf : Cert) (inters : List Cert) (a : Ca) (ctx : Option Nat)
    (u0 : Bytes) (k0 : Option Bytes) (t u k : Bytes)
    (hcl : env.cloud = false) (hu : env.user = defaultUser) (hn : (env.cas.map (·.addr)).Nodup)
    (hroot : CaOk env.cfg true env.otm (inters.length + 1) root) (hrn : Names root) (hrl : NamesByLength root) (hrt : InTime root)
    (hint : Inters env.cfg env.otm inters)
    (hleaf : LeafOk env.cfg oidIdentity oidRole leaf) (hlt : InTime leaf)
    (huuid : certUuid leaf = some t) (hset : setUuid t u0 = .ok u) (hk : leaf.pub = some k)
    (ha : a ∈ env.cas) (hau : Authorises d u a) (har : a.raw = root.raw) :
    ∃ p, handshake env ((root, 0) :: (inters.map (fun c => (c, 0)) ++ [(leaf, 0)])) ⟨some ⟨d, .identity, ctx⟩, u0, k0⟩
      = .ok (true, ⟨some ⟨d, .identity, some p⟩, u, some k⟩) := by
  have hfind : ∃ a', env.cas.find? (fun x => x.device == d && x.usage == .trustCa && root.raw == x.raw) = some a' := by
    cases hf : env.cas.find? (fun x => x.device == d && x.usage == .trustCa && root.raw == x.raw) with
    | some x => exact ⟨x, rfl⟩
    | none =>
      have := List.find?_eq_none.1 hf a ha
      simp [hau.1, hau.2.1, har] at this
  obtain ⟨a', hf⟩ := hfind
  have hm := List.mem_of_find?_eq_some hf
  have hp := List.find?_some hf
  simp only [Bool.and_eq_true, beq_iff_eq] at hp
  refine ⟨a'.addr, ?_⟩
  rw [handshake.eq_2]
  have hlen : (inters.map (fun c => (c, 0)) ++ [(leaf, 0)]).length = inters.length + 1 := by simp
  rw [hlen, check_default hcl hu (s' := ⟨some ⟨d, .identity, some a'.addr⟩, u0, k0⟩)]
  · simp only [Out.bind, if_true]
    rw [inters_pass hcl hu _ _ _ hint, handshake.eq_2]
    simp only [List.length_nil]
    rw [check_default hcl hu (s' := ⟨some ⟨d, .identity, some a'.addr⟩, u, some k⟩)]
    · simp only [Out.bind, if_true]; rfl
    · unfold verifyPeer verifyLeaf
      rw [if_neg (by omega)]
      obtain ⟨g, hg, _⟩ := hleaf.common.key
      have hv : endEntity env.cfg leaf 0 = .ok (true, 0) := by
        obtain ⟨⟨x, f, e, i⟩, _⟩ := leaf_partial env.cfg leaf 0 hg (by rw [hleaf.common.sig]; decide)
        rw [i.2 hleaf] at e
        rw [e, (leaf_sound.1 e).2, timeFlags_inTime hlt]
      rw [hv]
      simp only [Out.bind]
      rw [if_neg (by simp)]
      unfold peerUuid
      rw [huuid]
      simp only [hset, Out.bind, hk]
      unfold authorised
      simp only
      rw [if_neg (by simp), find_addr hn hm]
      simp only
      rw [authorise_mem hau (by rw [har]; exact hp.2) ha]
  · unfold verifyPeer verifyCa
    rw [if_pos (by omega), nee_ok hroot hrn hrl hrt]
    simp only [Out.bind, if_true]
    unfold noteRoot
    simp only [if_true]
    rw [hf]

/-- A UUID as text. -/
def t1 : Bytes := b "00010203-0405-0607-0809-0a0b0c0d0e0f"

/-- The UUID. -/
def u1 : Bytes := [0, 1, 2, 3, 4, 5, 6, 7, 8, 9, 10, 11, 12, 13, 14, 15]

/-- Another UUID as text. -/
def t2 : Bytes := b "ff010203-0405-0607-0809-0a0b0c0d0e0f"

/-- The other UUID. -/
def u2 : Bytes := [255, 1, 2, 3, 4, 5, 6, 7, 8, 9, 10, 11, 12, 13, 14, 15]

/-- A new peer of device 0, which has an identity certificate. -/
def fresh : St := ⟨some ⟨0, .identity, none⟩, List.replicate 16 0, none⟩

/-- CAs of device 0. -/
def envOf (cas : List Ca) : Env := ⟨cfg0, cas, false, defaultUser, false⟩

/-- A chain of a root, an intermediate CA and a device. -/
def chainOf (x : UInt8) (t : Bytes) : List (Cert × Nat) :=
  [(rootC x, 0), (interC x, 0), (leafC x (b "uuid:" ++ t), 0)]

/-- The hypotheses of `accepted` and of the theorems about accepted peers are met. -/
example : Inters cfg0 true [interC 65] ∧ LeafOk cfg0 oidIdentity oidRole (leafC 65 (b "uuid:" ++ t1)) ∧
    certUuid (leafC 65 (b "uuid:" ++ t1)) = some t1 ∧ setUuid t1 (List.replicate 16 0) = .ok u1 ∧
    Authorises 0 u1 ⟨7, 0, .trustCa, wildcard, [65]⟩ ∧
    handshake (envOf [⟨7, 0, .trustCa, wildcard, [65]⟩]) (chainOf 65 t1) fresh
      = .ok (true, ⟨some ⟨0, .identity, some 7⟩, u1, some [65]⟩) :=
  ⟨⟨interC_ok 65 true, (interC_names 65).1, (interC_names 65).2, ⟨rfl, rfl⟩, trivial⟩,
    (leaf_sound (flags := 0) (f := 0)).1 (by decide) |>.1, by decide, by decide, ⟨rfl, rfl, .inr rfl⟩, by decide⟩

/-- Refused: the CA names another device; the CA is one of another device; a certificate
has expired; an intermediate CA signs another CA although its path length is 0. -/
example : (∃ s, handshake (envOf [⟨7, 0, .trustCa, u2, [65]⟩]) (chainOf 65 t1) fresh = .ok (false, s)) ∧
    (∃ s, handshake (envOf [⟨7, 1, .trustCa, wildcard, [65]⟩]) (chainOf 65 t1) fresh = .ok (false, s)) ∧
    (∃ s, handshake (envOf [⟨7, 0, .trustCa, wildcard, [65]⟩])
      [(rootC 65, 0), (leafC 65 (b "uuid:" ++ t1) |> fun c => { c with past := true }, 0)] fresh = .ok (false, s)) ∧
    (∃ s, handshake (envOf [⟨7, 0, .trustCa, wildcard, [65]⟩])
      [(rootC 65, 0), (interC 65, 0), (interC 65, 0), (leafC 65 (b "uuid:" ++ t1), 0)] fresh = .ok (false, s)) :=
  ⟨⟨⟨some ⟨0, .identity, some 7⟩, u1, some [65]⟩, by decide⟩, ⟨⟨some ⟨0, .identity, none⟩, u1, some [65]⟩, by decide⟩,
    ⟨⟨some ⟨0, .identity, some 7⟩, u1, some [65]⟩, by decide⟩,
    ⟨⟨some ⟨0, .identity, some 7⟩, List.replicate 16 0, none⟩, by decide⟩⟩

/-- C108 is false as stated: the only trusted CA of the device names the peer `u2`, but the
peer `u1` is accepted, because the loop over the CAs ends with success at the first CA
that is not a trusted CA of this device (here: one of a manufacturer). Without this CA the
peer is refused. -/
theorem loop_stops_false :
    (∃ s, handshake (envOf [⟨7, 0, .trustCa, u2, [65]⟩, ⟨8, 0, .mfgTrustCa, wildcard, [66]⟩]) (chainOf 65 t1) fresh
      = .ok (true, s) ∧ s.uuid = u1) ∧
    (∀ a ∈ [⟨7, 0, .trustCa, u2, [65]⟩, ⟨8, 0, .mfgTrustCa, wildcard, [66]⟩], ¬ Authorises 0 u1 a) ∧
    ∃ s, handshake (envOf [⟨7, 0, .trustCa, u2, [65]⟩]) (chainOf 65 t1) fresh = .ok (false, s) := by
  refine ⟨⟨⟨some ⟨0, .identity, some 7⟩, u1, some [65]⟩, by decide, rfl⟩, ?_,
    ⟨⟨some ⟨0, .identity, some 7⟩, u1, some [65]⟩, by decide⟩⟩
  intro a ha h
  simp only [List.mem_cons, List.not_mem_nil, or_false] at ha
  rcases ha with rfl | rfl
  · rcases h.2.2 with h | h <;> simp [u1, u2, List.replicate] at h
  · exact absurd h.2.1 (by decide)

/-- C108 is false as stated: the CA found in one handshake is kept for the next ones. After
one handshake with a trusted chain a peer with a chain that ends in a CA of a manufacturer
is accepted with the identity certificate; before it is refused. -/
theorem stale_root_false :
    ∃ s, handshake (envOf [⟨7, 0, .trustCa, wildcard, [65]⟩, ⟨8, 0, .mfgTrustCa, wildcard, [66]⟩]) (chainOf 65 t1) fresh
        = .ok (true, s) ∧
      (∃ s', handshake (envOf [⟨7, 0, .trustCa, wildcard, [65]⟩, ⟨8, 0, .mfgTrustCa, wildcard, [66]⟩]) (chainOf 66 t2)
        { fresh with own := s.own } = .ok (true, s') ∧ s'.uuid = u2) ∧
      (∃ s', handshake (envOf [⟨7, 0, .trustCa, wildcard, [65]⟩, ⟨8, 0, .mfgTrustCa, wildcard, [66]⟩]) (chainOf 66 t2) fresh
        = .ok (false, s')) ∧
      ∀ a ∈ [⟨7, 0, .trustCa, wildcard, [65]⟩, ⟨8, 0, .mfgTrustCa, wildcard, [66]⟩],
        Authorises 0 u2 a → a.raw ∉ (chainOf 66 t2).map (·.1.raw) := by
  refine ⟨⟨some ⟨0, .identity, some 7⟩, u1, some [65]⟩, by decide,
    ⟨⟨some ⟨0, .identity, some 7⟩, u2, some [66]⟩, by decide, rfl⟩, ⟨⟨some ⟨0, .identity, none⟩, u2, some [66]⟩, by decide⟩, ?_⟩
  intro a ha h
  simp only [List.mem_cons, List.not_mem_nil, or_false] at ha
  rcases ha with rfl | rfl
  · decide
  · exact absurd h.2.1 (by decide)

/-- C108: the CA found in a handshake is freed when its credential is deleted, the own
certificate still refers to it, and the next handshake reads it. -/
theorem removed_anchor_ub :
    ∃ s, handshake (envOf [⟨7, 0, .trustCa, wildcard, [65]⟩]) (chainOf 65 t1) fresh = .ok (true, s) ∧
      handshake (envOf [⟨8, 0, .mfgTrustCa, wildcard, [66]⟩]) (chainOf 66 t2) { fresh with own := s.own } = .ub :=
  ⟨⟨some ⟨0, .identity, some 7⟩, u1, some [65]⟩, by decide, by decide⟩

end Verif.Certs
