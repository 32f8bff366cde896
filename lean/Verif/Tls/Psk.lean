import Verif.Tls.Handshake

/-!
C117: the pre-shared key of a handshake belongs to the peer that it authenticates.
-/

namespace Verif.Tls

open Verif.Acl (Dos Id)
open Verif.Cred (Cred)
open Verif.Rep (b)

/-- A credential for a pre-shared key of a peer (specification). -/
def IsPskFor (c : Cred) (peer : Id) : Prop := c.typ = 1 ∧ c.usage = 0 ∧ c.subject = peer

/-- The first credential of a list for a pre-shared key of a peer (specification). -/
def FirstPsk (l : List Cred) (peer : Id) (c : Cred) : Prop :=
  ∃ l1 l2, l = l1 ++ c :: l2 ∧ IsPskFor c peer ∧ ∀ x ∈ l1, ¬ IsPskFor x peer

theorem findPsk_spec (l : List Cred) (mem : List UInt8) (hm : 16 ≤ mem.length) :
    (∃ c, findPsk l mem = .ok (some c) ∧ FirstPsk l (mem.take 16) c) ∨
    (findPsk l mem = .ok none ∧ ∀ x ∈ l, ¬ IsPskFor x (mem.take 16)) := by
  induction l with
  | nil => exact .inr ⟨rfl, by simp⟩
  | cons c l ih =>
    simp only [findPsk]
    by_cases hc : c.typ = Cred.psk ∧ c.usage = 0
    · rw [if_pos hc, if_neg (by omega)]
      by_cases hs : c.subject = mem.take 16
      · rw [if_pos hs]
        exact .inl ⟨c, rfl, [], l, rfl, ⟨hc.1, hc.2, hs⟩, by simp⟩
      · rw [if_neg hs]
        have hn : ¬ IsPskFor c (mem.take 16) := fun h => hs h.2.2
        rcases ih with ⟨x, h1, l1, l2, h2, h3, h4⟩ | ⟨h1, h2⟩
        · exact .inl ⟨x, h1, c :: l1, l2, by rw [h2]; rfl, h3, by
            intro y hy; rcases List.mem_cons.mp hy with rfl | hy; exact hn; exact h4 y hy⟩
        · exact .inr ⟨h1, by intro y hy; rcases List.mem_cons.mp hy with rfl | hy; exact hn; exact h2 y hy⟩
    · rw [if_neg hc]
      have hn : ¬ IsPskFor c (mem.take 16) := fun h => hc ⟨h.1, h.2.1⟩
      rcases ih with ⟨x, h1, l1, l2, h2, h3, h4⟩ | ⟨h1, h2⟩
      · exact .inl ⟨x, h1, c :: l1, l2, by rw [h2]; rfl, h3, by
          intro y hy; rcases List.mem_cons.mp hy with rfl | hy; exact hn; exact h4 y hy⟩
      · exact .inr ⟨h1, by intro y hy; rcases List.mem_cons.mp hy with rfl | hy; exact hn; exact h2 y hy⟩

theorem firstPsk_unique (l : List Cred) (p : Id) (c x : Cred) (h1 : FirstPsk l p c) (h2 : FirstPsk l p x) : c = x := by
  obtain ⟨a1, a2, ha, hc, hna⟩ := h1
  obtain ⟨b1, b2, hb, hx, hnb⟩ := h2
  induction a1 generalizing l b1 with
  | nil =>
    cases b1 with
    | nil => rw [ha] at hb; simp at hb; exact hb.1
    | cons y b1 =>
      rw [ha] at hb; simp at hb
      exact absurd (hb.1 ▸ hc) (hnb y (by simp))
  | cons z a1 ih =>
    cases b1 with
    | nil =>
      rw [ha] at hb; simp at hb
      exact absurd (hb.1 ▸ hx) (hna z (by simp))
    | cons y b1 =>
      rw [ha] at hb; simp at hb
      exact ih (a1 ++ c :: a2) rfl (fun w hw => hna w (by simp [hw])) b1 hb.2
        (fun w hw => hnb w (by simp [hw]))

/-- The identity that counts: an onboarding tool in normal operation drops the prefix
by which a device announces the transfer of ownership with a PIN (specification). -/
inductive Names (d : Device) : List UInt8 → Id → Prop where
  | plain (id : Id) : id.length = 16 → Names d id id
  | pin (id : Id) : id.length = 16 → d.dos = .rfnop → Names d (b "oic.sec.doxm.rdp:" ++ id) id

theorem strip_names (d : Device) (sent : List UInt8) (id : Id) (rest : List UInt8) (h : Names d sent id) :
    strip d (sent ++ rest) sent.length = (id ++ rest, 16) := by
  cases h with
  | plain _ hl =>
    simp only [strip]
    rw [if_neg (by omega), hl]
  | pin _ hl hd =>
    have h17 : (b "oic.sec.doxm.rdp:").length = 17 := by decide
    simp only [strip, List.append_assoc]
    rw [if_pos ⟨hd, by simp [h17]; omega, by rw [List.take_append_of_le_length (by omega), List.take_of_length_le (by omega)]⟩]
    rw [show (17 : Nat) = (b "oic.sec.doxm.rdp:").length from h17.symm, List.drop_left]
    simp [hl]

/-- For every peer that sends an identity of the right form, whatever follows it in the
record, and all credentials of the device: the handshake uses the key of the first
pre-shared key stored for exactly that identity, and the peer counts as that identity;
without one the key is the one of the PIN if the device waits for its owner with that
method and the peer says so; otherwise the handshake is refused. -/
theorem psk_exact (kdf : List UInt8 → Id → List UInt8) (g : Glob) (d : Device) (sent : List UInt8) (id : Id)
    (rest : List UInt8) (hn : Names d sent id) :
    (∀ c, FirstPsk d.creds id c → pskCb kdf g d (sent ++ rest) sent.length = .ok (.key c.priv.bytes id)) ∧
    ((∀ x ∈ d.creds, ¬ IsPskFor x id) →
      (d.dos = .rfotm ∧ d.oxmsel = 1 ∧ id = b "oic.sec.doxm.rdp" →
        pskCb kdf g d (sent ++ rest) sent.length = .ok (.key (kdf g.pin d.uuid) id)) ∧
      (¬ (d.dos = .rfotm ∧ d.oxmsel = 1 ∧ id = b "oic.sec.doxm.rdp") →
        pskCb kdf g d (sent ++ rest) sent.length = .ok .refused)) := by
  have hl : id.length = 16 := by cases hn <;> assumption
  have ht : (id ++ rest).take 16 = id := by
    rw [List.take_append_of_le_length (by omega), List.take_of_length_le (by omega)]
  simp only [pskCb, strip_names d sent id rest hn, ht]
  have hf := findPsk_spec d.creds (id ++ rest) (by simp; omega)
  rw [ht] at hf
  constructor
  · intro c hc
    rcases hf with ⟨x, h1, h2⟩ | ⟨_, h2⟩
    · rw [h1, firstPsk_unique _ _ _ _ hc h2]; rfl
    · obtain ⟨l1, l2, he, hp, _⟩ := hc
      exact absurd hp (h2 c (by rw [he]; simp))
  · intro hno
    rcases hf with ⟨x, _, l1, l2, he, hp, _⟩ | ⟨h1, _⟩
    · exact absurd hp (hno x (by rw [he]; simp))
    · rw [h1]
      simp only [Out.bind]
      constructor
      · rintro ⟨hd, ho, hi⟩
        simp [hd, ho, hi]
      · intro hno'
        by_cases hd : d.dos = .rfotm ∧ d.oxmsel = 1
        · rw [if_pos hd, if_neg (fun h => hno' ⟨hd.1, hd.2, h.2⟩)]
        · rw [if_neg hd]

/-- Whatever a peer sends, and however long: if the handshake goes on, either a
pre-shared key for the identifier that the peer then has is stored on the device and
is the key, or the device waits for its owner, the method of the PIN is selected and
the key is derived from the PIN. -/
theorem psk_sound (kdf : List UInt8 → Id → List UInt8) (g : Glob) (d : Device) (mem : List UInt8) (len : Nat)
    (k : List UInt8) (peer : Id) (h : pskCb kdf g d mem len = .ok (.key k peer)) :
    (∃ c ∈ d.creds, IsPskFor c peer ∧ k = c.priv.bytes) ∨
    (d.dos = .rfotm ∧ d.oxmsel = 1 ∧ peer = b "oic.sec.doxm.rdp" ∧ k = kdf g.pin d.uuid) := by
  simp only [pskCb] at h
  generalize hs : strip d mem len = id at h
  obtain ⟨m, n⟩ := id
  simp only at h
  have hfind : ∀ l : List Cred, ∀ c, findPsk l m = .ok (some c) → c ∈ l ∧ IsPskFor c (m.take 16) := by
    intro l
    induction l with
    | nil => intro c h'; simp [findPsk] at h'
    | cons x l ih =>
      intro c h'
      simp only [findPsk] at h'
      split at h'
      · next hx =>
        split at h'
        · cases h'
        · split at h'
          · next hsub => cases h'; exact ⟨by simp, hx.1, hx.2, hsub⟩
          · obtain ⟨h1, h2⟩ := ih c h'; exact ⟨by simp [h1], h2⟩
      · obtain ⟨h1, h2⟩ := ih c h'; exact ⟨by simp [h1], h2⟩
  cases hf : findPsk d.creds m with
  | ub => rw [hf] at h; cases h
  | ok r =>
    rw [hf] at h
    simp only [Out.bind] at h
    cases r with
    | some c =>
      simp only [Out.ok.injEq, PskRes.key.injEq] at h
      obtain ⟨h1, h2⟩ := hfind d.creds c hf
      exact .inl ⟨c, h1, by rw [← h.2]; exact h2, h.1.symm⟩
    | none =>
      simp only at h
      split at h
      · next hd =>
        split at h
        · next hi =>
          simp only [Out.ok.injEq, PskRes.key.injEq] at h
          exact .inr ⟨hd.1, hd.2, by rw [← h.2]; exact hi.2, h.1.symm⟩
        · cases h
      · cases h

/-- Two devices in normal operation that each have, as their first pre-shared key for
the other, the same key: they agree on it and each knows the other. -/
theorem peers_agree (kdf : List UInt8 → Id → List UInt8) (g1 g2 : Glob) (d1 d2 : Device) (c1 c2 : Cred)
    (r1 r2 : List UInt8) (h1 : d1.uuid.length = 16) (h2 : d2.uuid.length = 16)
    (n1 : d1.dos = .rfnop) (n2 : d2.dos = .rfnop)
    (f1 : FirstPsk d1.creds d2.uuid c1) (f2 : FirstPsk d2.creds d1.uuid c2) (hk : c1.priv.bytes = c2.priv.bytes)
    (hp : g1.pinId = false) :
    pskCb kdf g2 d2 (identityFor g1 d1 .client ++ r1) (identityFor g1 d1 .client).length =
      .ok (.key c1.priv.bytes d1.uuid) ∧
    pskCb kdf g1 d1 (identityFor g2 d2 .server ++ r2) (identityFor g2 d2 .server).length =
      .ok (.key c1.priv.bytes d2.uuid) := by
  have i1 : identityFor g1 d1 .client = d1.uuid := by simp [identityFor, hp, n1]
  have i2 : identityFor g2 d2 .server = d2.uuid := by simp [identityFor, n2]
  rw [i1, i2]
  exact ⟨by rw [(psk_exact kdf g2 d2 _ _ r1 (.plain _ h1)).1 c2 f2, hk],
    (psk_exact kdf g1 d1 _ _ r2 (.plain _ h2)).1 c1 f1⟩

/-- Transfer of ownership with a PIN, for every history of the two sides: the tool has
stored for the device the key derived from the PIN that it was told
(security/oc_obt_otm_randompin.c:635-673), has chosen the identity for it, and the
device has generated that PIN last and has no key for the identity.  Both use the key
of the PIN, and the tool knows the device by its identifier. -/
theorem pin_agrees (kdf : List UInt8 → Id → List UInt8) (ht hd : List HsOp) (tool dev : Device) (c : Cred)
    (r1 r2 : List UInt8) (hu : dev.uuid.length = 16) (nt : tool.dos = .rfnop) (nd : dev.dos = .rfotm)
    (no : dev.oxmsel = 1) (f : FirstPsk tool.creds dev.uuid c)
    (hk : c.priv.bytes = kdf (Spec.lastPin hd) dev.uuid)
    (hno : ∀ x ∈ dev.creds, ¬ IsPskFor x (b "oic.sec.doxm.rdp")) :
    let gt := hsRun Glob.init (ht ++ [.usePin])
    let gd := hsRun Glob.init hd
    pskCb kdf gd dev (identityFor gt tool .client ++ r1) (identityFor gt tool .client).length =
      .ok (.key (kdf (Spec.lastPin hd) dev.uuid) (b "oic.sec.doxm.rdp")) ∧
    pskCb kdf gt tool (identityFor gd dev .server ++ r2) (identityFor gd dev .server).length =
      .ok (.key (kdf (Spec.lastPin hd) dev.uuid) dev.uuid) := by
  simp only
  have i1 : identityFor (hsRun Glob.init (ht ++ [.usePin])) tool .client = b "oic.sec.doxm.rdp" := by
    rw [hsRun_append]; simp [identityFor, hsStep]
  have i2 : identityFor (hsRun Glob.init hd) dev .server = b "oic.sec.doxm.rdp:" ++ dev.uuid := by
    simp [identityFor, nd, no]
  rw [i1, i2]
  constructor
  · have := ((psk_exact kdf (hsRun Glob.init hd) dev (b "oic.sec.doxm.rdp") (b "oic.sec.doxm.rdp") r1
      (.plain _ (by decide))).2 hno).1 ⟨nd, no, rfl⟩
    rw [this, (globals hd).2.2]
  · rw [(psk_exact kdf _ tool _ _ r2 (.pin dev.uuid hu nt)).1 c f, hk]

/-- The identifier of an example. -/
def exId (x : UInt8) : Id := List.replicate 16 x

/-- A pre-shared key for a peer. -/
def exCred (peer : Id) (key : List UInt8) : Cred :=
  ⟨0, 1, 1, 0, peer, ⟨key, 2⟩, {}, [], [], [], false, false⟩

/-- A device in normal operation with some keys. -/
def exNop (x : UInt8) (l : List Cred) : Device := ⟨.rfnop, 4, true, exId x, l, fun _ => false, fun _ => false⟩

/-- A device that waits for its owner, who chose the PIN. -/
def exPin (x : UInt8) : Device := ⟨.rfotm, 1, false, exId x, [], fun _ => false, fun _ => false⟩

/-- `peers_agree` is met by two devices, each with a key for a third peer in front. -/
example (kdf : List UInt8 → Id → List UInt8) :
    pskCb kdf {} (exNop 2 [exCred (exId 3) [9], exCred (exId 1) [5, 5]]) (exId 1 ++ [7, 7]) 16 =
      .ok (.key [5, 5] (exId 1)) := by
  have f1 : FirstPsk (exNop 1 [exCred (exId 3) [8], exCred (exId 2) [5, 5]]).creds (exNop 2 []).uuid (exCred (exId 2) [5, 5]) :=
    ⟨[exCred (exId 3) [8]], [], rfl, ⟨rfl, rfl, rfl⟩, by
      intro x hx; simp at hx; subst hx; intro h; exact absurd h.2.2 (by decide)⟩
  have f2 : FirstPsk (exNop 2 [exCred (exId 3) [9], exCred (exId 1) [5, 5]]).creds (exId 1) (exCred (exId 1) [5, 5]) :=
    ⟨[exCred (exId 3) [9]], [], rfl, ⟨rfl, rfl, rfl⟩, by
      intro x hx; simp at hx; subst hx; intro h; exact absurd h.2.2 (by decide)⟩
  exact (peers_agree kdf {} {} (exNop 1 [exCred (exId 3) [8], exCred (exId 2) [5, 5]])
    (exNop 2 [exCred (exId 3) [9], exCred (exId 1) [5, 5]]) _ _ [7, 7] [] rfl rfl rfl rfl f1 f2 rfl rfl).1

/-- `pin_agrees` is met by a tool with the derived key and a device that generated
two PINs. -/
example :
    pskCb (fun pin salt => pin ++ salt.take 2) (hsRun Glob.init [.newPin [1], .newPin [2, 3]]) (exPin 6)
      (b "oic.sec.doxm.rdp" ++ [1, 2, 3]) 16 = .ok (.key [2, 3, 6, 6] (b "oic.sec.doxm.rdp")) :=
  (pin_agrees (fun pin salt => pin ++ salt.take 2) [] [.newPin [1], .newPin [2, 3]]
    (exNop 1 [exCred (exId 6) [2, 3, 6, 6]]) (exPin 6) (exCred (exId 6) [2, 3, 6, 6]) [1, 2, 3] [] rfl rfl rfl rfl
    ⟨[], [], rfl, ⟨rfl, rfl, rfl⟩, by simp⟩ rfl (by simp [exPin])).1

/-- Disagreement: an identity that is shorter than 16 bytes, here empty, is completed
with the bytes that follow it in the record, and the peer counts as the result. -/
theorem short_identity_false : pskCb (fun _ _ => []) {} (exNop 2 [exCred (exId 1) [5, 5]]) (exId 1) 0 =
    .ok (.key [5, 5] (exId 1)) := by decide +kernel

/-- Disagreement: an identity that is longer than 16 bytes counts as its first 16. -/
theorem long_identity_false :
    pskCb (fun _ _ => []) {} (exNop 2 [exCred (exId 1) [5, 5]]) (exId 1 ++ b "anything") 24 =
      .ok (.key [5, 5] (exId 1)) := by decide +kernel

/-- Disagreement: when fewer than 16 bytes are left in the buffer behind the start of a
short identity, bytes outside of it are read; with the prefix of the PIN 17 more bytes
are skipped. -/
theorem short_identity_ub : pskCb (fun _ _ => []) {} (exNop 2 [exCred (exId 1) [5, 5]])
    (b "oic.sec.doxm.rdp:abc") 20 = .ub := by decide +kernel

/-- Disagreement: there is one PIN for all logical devices.  Device 6 shows its PIN;
then the method is selected on device 7, and the PIN shown by device 6 is not the one
it uses any more. -/
theorem pin_shared_false :
    let h : List HsOp := [.newPin (b "11111111"), .newPin (b "22222222")]
    pskCb (fun pin _ => pin) (hsRun Glob.init h) (exPin 6) (b "oic.sec.doxm.rdp") 16 =
      .ok (.key (b "22222222") (b "oic.sec.doxm.rdp")) := by decide +kernel

end Verif.Tls
