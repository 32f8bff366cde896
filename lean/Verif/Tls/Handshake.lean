import Verif.Tls.HsSpec

/-!
C116: cipher suites, certificates and identity of a handshake.
-/

namespace Verif.Tls

open Verif.Acl (Dos Id)
open Verif.Cred (Cred)
open Verif.Rep (b)
open Spec

theorem newPeer_sets (g : Glob) (d : Device) (n : Nat) (a : Bool) (r : Role) (di : Id) :
    newPeer g d n a r di =
      if SetsUp (.peer d n false a r di) then
        (some ⟨suitesFor g d r di, g.ciphers == some .cloud, afterRfotm d.dos || r == .client,
          identityFor g d r, loadChain g d, d.dos == .rfotm⟩,
         { g with ciphers := none, mfg := none, ident := none,
                  pinId := if r = .client then false else g.pinId })
      else (none, g) := by
  simp only [newPeer, SetsUp]
  by_cases hd : d.dos = .rfotm
  · by_cases ho : d.oxmsel = 4
    · simp [hd, ho]
    · by_cases hn : n = 0
      · cases a <;> simp [hd, ho, hn]
      · simp [hd, ho, hn]
  · have : (d.dos == Dos.rfotm) = false := by simpa using hd
    cases a <;> simp [hd, this]

theorem hsStep_peer (g : Glob) (d : Device) (n : Nat) (e a : Bool) (r : Role) (di : Id) :
    hsStep g (.peer d n e a r di) =
      if SetsUp (.peer d n e a r di) then
        (some ⟨suitesFor g d r di, g.ciphers == some .cloud, afterRfotm d.dos || r == .client,
          identityFor g d r, loadChain g d, d.dos == .rfotm⟩,
         { g with ciphers := none, mfg := none, ident := none,
                  pinId := if r = .client then false else g.pinId })
      else (none, g) := by
  simp only [hsStep]
  cases e with
  | false => rw [if_neg (by simp), newPeer_sets]
  | true => rw [if_pos rfl, if_neg (by simp [SetsUp])]

theorem hsRun_append (h : List HsOp) (op : HsOp) : ∀ g, hsRun g (h ++ [op]) = (hsStep (hsRun g h) op).2 := by
  induction h with
  | nil => intro g; rfl
  | cons x h ih => intro g; simp only [List.cons_append, hsRun]; exact ih _

theorem foldl_snoc {α β} (f : β → α → β) (i : β) (h : List α) (x : α) :
    (h ++ [x]).foldl f i = f (h.foldl f i) x := by simp

theorem list_rev_induction {α} {P : List α → Prop} (h0 : P []) (hs : ∀ l x, P l → P (l ++ [x])) (l : List α) : P l := by
  have : ∀ n, ∀ l : List α, l.length = n → P l := by
    intro n
    induction n with
    | zero => intro l h; rw [List.eq_nil_of_length_eq_zero h]; exact h0
    | succ n ih =>
      intro l h
      have hne : l ≠ [] := by intro h'; rw [h'] at h; simp at h
      have hd := List.dropLast_concat_getLast hne
      rw [← hd]
      exact hs _ _ (ih _ (by simp [h]))
  exact this _ l rfl

/-- The globals of every history are the choices in force. -/
theorem globals (h : List HsOp) : (hsRun Glob.init h).ciphers = chosen h ∧
    (hsRun Glob.init h).ident = chosenIdent h ∧ (hsRun Glob.init h).pin = lastPin h := by
  induction h using list_rev_induction with
  | h0 => exact ⟨rfl, rfl, rfl⟩
  | hs h op ih =>
    obtain ⟨h1, h2, h3⟩ := ih
    rw [hsRun_append]
    simp only [chosen, chosenIdent, lastPin, foldl_snoc] at h1 h2 h3 ⊢
    cases op with
    | select p => exact ⟨rfl, h2, h3⟩
    | reset => exact ⟨rfl, h2, h3⟩
    | selectMfg i => exact ⟨h1, h2, h3⟩
    | selectIdent i => exact ⟨h1, rfl, h3⟩
    | usePin => exact ⟨h1, h2, h3⟩
    | newPin p => exact ⟨h1, h2, rfl⟩
    | peer d n e a r di =>
      rw [hsStep_peer]
      by_cases hs : SetsUp (.peer d n e a r di)
      · simp only [choose, chooseIdent, hs, if_true]; exact ⟨trivial, trivial, h3⟩
      · simp only [choose, chooseIdent, hs, if_false]; exact ⟨h1, h2, h3⟩

/-- For every history of choices and connections: exactly the connections that set
up get a configuration. -/
theorem sets_up_iff (h : List HsOp) (op : HsOp) : ((hsStep (hsRun Glob.init h) op).1 ≠ none) ↔ SetsUp op := by
  cases op with
  | peer d n e a r di => rw [hsStep_peer]; split <;> simp [*]
  | _ => simp [hsStep, SetsUp]

/-- For every history, the suites of a connection as a server are those of the
selected method during the transfer of ownership, and otherwise those of the choice
in force, or the default ones, which are not anonymous. -/
theorem server_suites (h : List HsOp) (d : Device) (n : Nat) (e a : Bool) (di : Id) (c : Conf)
    (hc : (hsStep (hsRun Glob.init h) (.peer d n e a .server di)).1 = some c) :
    (d.dos = .rfotm → Otm d.oxmsel c.suites) ∧
    (d.dos ≠ .rfotm → c.suites = match chosen h with
      | some p => p.suites
      | none => defaultSuites) := by
  rw [hsStep_peer] at hc
  split at hc
  · simp only [Option.some.injEq] at hc
    subst hc
    simp only [suitesFor]
    constructor
    · intro hd
      simp only [hd, and_self, if_true]
      refine ⟨fun h0 => by simp [h0], fun h1 => by simp [h1], fun h2 => ?_⟩
      simp only [h2]
      intro s hs
      simp [certSuites] at hs
      rcases hs with h | h | h | h <;> simp [h]
    · intro hd
      simp only [hd, and_false, if_false, (globals h).1]
      cases chosen h <;> simp
  · cases hc

/-- A server outside of the transfer of ownership accepts an anonymous peer exactly
when the application chose anonymous suites and no connection was set up since. -/
theorem anon_iff (h : List HsOp) (d : Device) (n : Nat) (e a : Bool) (di : Id) (c : Conf)
    (hc : (hsStep (hsRun Glob.init h) (.peer d n e a .server di)).1 = some c) (hd : d.dos ≠ .rfotm) :
    .anonCbc ∈ c.suites ↔ chosen h = some .anon := by
  rw [(server_suites h d n e a di c hc).2 hd]
  cases hch : chosen h with
  | none => simp; decide
  | some p => cases p <;> simp <;> decide

/-- Partial: without a pending choice, a server outside of the transfer of ownership
accepts no anonymous peer and checks certificates by the rules for devices
(false otherwise: `anon_leak_false`, `cloud_leak_false`). -/
theorem server_authenticates_partial (h : List HsOp) (d : Device) (n : Nat) (e a : Bool) (di : Id) (c : Conf)
    (hc : (hsStep (hsRun Glob.init h) (.peer d n e a .server di)).1 = some c)
    (hdos : d.dos = .rfpro ∨ d.dos = .rfnop ∨ d.dos = .sreset) (hno : chosen h = none) :
    .anonCbc ∉ c.suites ∧ c.cloudVerify = false ∧ c.required = true := by
  have hd : afterRfotm d.dos = true := by rcases hdos with h | h | h <;> rw [h] <;> rfl
  have hd' : d.dos ≠ .rfotm := by intro h'; rw [h'] at hd; cases hd
  refine ⟨fun hm => ?_, ?_, ?_⟩
  · rw [anon_iff h d n e a di c hc hd', hno] at hm; cases hm
  · rw [hsStep_peer] at hc
    split at hc
    · simp only [Option.some.injEq] at hc
      rw [← hc]; simp [(globals h).1, hno]
    · cases hc
  · rw [hsStep_peer] at hc
    split at hc
    · simp only [Option.some.injEq] at hc
      rw [← hc]; simp [hd]
    · cases hc

/-- For every history, a connection as a client uses the choice in force; without
one, a pre-shared key if the first credential for that peer is one, else certificates
if the device has a chain, and always demands a certificate when the suite has one. -/
theorem client_suites (h : List HsOp) (d : Device) (n : Nat) (e a : Bool) (di : Id) (c : Conf)
    (hc : (hsStep (hsRun Glob.init h) (.peer d n e a .client di)).1 = some c) :
    c.required = true ∧ c.cloudVerify = (chosen h == some .cloud) ∧
    (∀ p, chosen h = some p → c.suites = p.suites) ∧
    (chosen h = none → (∃ x, (d.creds.find? fun x => x.subject == di) = some x ∧ x.typ = 1) → c.suites = [.pskCbc]) ∧
    (chosen h = none → (¬ ∃ x, (d.creds.find? fun x => x.subject == di) = some x ∧ x.typ = 1) →
      c.suites = if c.chain = .nothing then defaultSuites else certSuites) := by
  rw [hsStep_peer] at hc
  split at hc
  · simp only [Option.some.injEq] at hc
    subst hc
    have hg := (globals h).1
    simp only [suitesFor, hg]
    refine ⟨by simp, trivial, ?_, ?_, ?_⟩
    · intro p hp; simp [hp]
    · rintro hn ⟨x, hx, ht⟩
      simp [hn, findSubject, hx, ht, Cred.psk]
    · intro hn hx
      simp only [hn, findSubject]
      cases hf : d.creds.find? fun x => x.subject == di with
      | none => simp
      | some x =>
        have ht : x.typ ≠ Cred.psk := fun h' => hx ⟨x, hf, h'⟩
        simp [ht]
  · cases hc

/-- While the ownership of a device is being transferred, a connection is set up only
after a method was selected and only if there is no other. -/
theorem single_doc (h : List HsOp) (d : Device) (n : Nat) (e a : Bool) (r : Role) (di : Id) (c : Conf)
    (hc : (hsStep (hsRun Glob.init h) (.peer d n e a r di)).1 = some c) :
    c.doc = (d.dos == .rfotm) ∧ (d.dos = .rfotm → d.oxmsel ≠ 4 ∧ n = 0) := by
  have hs : SetsUp (.peer d n e a r di) := by
    rw [← sets_up_iff h]; rw [hc]; simp
  rw [hsStep_peer, if_pos hs] at hc
  simp only [Option.some.injEq] at hc
  exact ⟨by rw [← hc], hs.2.2⟩

/-- The own chain: the identity certificates of an owned device, by the credential
chosen since the last connection was set up; else those of the manufacturer. -/
theorem own_chain (h : List HsOp) (d : Device) (n : Nat) (e a : Bool) (r : Role) (di : Id) (c : Conf)
    (hc : (hsStep (hsRun Glob.init h) (.peer d n e a r di)).1 = some c) :
    c.chain = .ident ↔ d.owned = true ∧ d.identChain (chosenIdent h) = true := by
  rw [hsStep_peer] at hc
  split at hc
  · simp only [Option.some.injEq] at hc
    subst hc
    simp only [loadChain, (globals h).2.1]
    split
    · next hh => simpa using hh
    · next hh =>
      constructor
      · intro h'; split at h' <;> cases h'
      · rintro ⟨h1, h2⟩; simp [h1, h2] at hh
  · cases hc

/-- A device in normal operation. -/
def exDev : Device := ⟨.rfnop, 4, true, List.replicate 16 1, [], fun i => i == none, fun _ => true⟩

/-- A device waiting for its owner with "just works" selected. -/
def exNew : Device := ⟨.rfotm, 0, false, List.replicate 16 2, [], fun _ => false, fun _ => true⟩

/-- `server_authenticates_partial`, `anon_iff` and `single_doc` are met: a choice is
used up by a connection as a client before a peer connects; a second connection
during the transfer of ownership is refused. -/
example :
    (hsStep (hsRun Glob.init [.select .anon, .peer exDev 0 false true .client (List.replicate 16 3)])
      (.peer exDev 1 false true .server (List.replicate 16 4))).1 =
        some ⟨defaultSuites, false, true, List.replicate 16 1, .ident, false⟩ ∧
    chosen [.select .anon, .peer exDev 0 false true .client (List.replicate 16 3)] = none ∧
    ((hsStep Glob.init (.peer exNew 0 false true .server (List.replicate 16 4))).1.map (·.suites)) = some [.anonCbc] ∧
    (hsStep Glob.init (.peer exNew 1 false true .server (List.replicate 16 4))).1 = none := by
  decide +kernel

/-- Disagreement: an onboarding tool that chooses anonymous suites for its own next
connection accepts the next peer that connects to it, whoever that is, without any
authentication, although it is in normal operation. -/
theorem anon_leak_false : ∃ (h : List HsOp) (c : Conf), h = [.select .anon] ∧
    (hsStep (hsRun Glob.init h) (.peer exDev 0 false true .server (List.replicate 16 9))).1 = some c ∧
    c.suites = [.anonCbc] :=
  ⟨_, _, rfl, rfl, rfl⟩

/-- Disagreement: a device that is about to connect to its cloud checks the
certificate of a peer that connects first by the rules for a cloud: any chain that
mbedtls accepts, for any or no identity. -/
theorem cloud_leak_false : ∃ (h : List HsOp) (c : Conf), h = [.select .cloud] ∧
    (hsStep (hsRun Glob.init h) (.peer exDev 0 false true .server (List.replicate 16 9))).1 = some c ∧
    c.cloudVerify = true :=
  ⟨_, _, rfl, rfl, rfl⟩

/-- Disagreement: the peer that connected in between used up the choice of the
client, whose own connection then offers the default suites. -/
theorem choice_lost_false :
    let h : List HsOp := [.select .psk, .peer exDev 0 false true .server (List.replicate 16 9)]
    chosen h = none ∧
    ((hsStep (hsRun Glob.init h) (.peer { exDev with identChain := fun _ => false, mfgChain := fun _ => false }
      1 false true .client (List.replicate 16 3))).1.map (·.suites)) = some defaultSuites := by
  decide +kernel

/-- Disagreement: the choice of an identity certificate for the cloud is applied to
the peer that connects first: here it gets the certificate of the manufacturer. -/
theorem ident_leak_false : ∃ (h : List HsOp) (c c0 : Conf), h = [.selectIdent 7] ∧
    (hsStep (hsRun Glob.init h) (.peer exDev 0 false true .server (List.replicate 16 9))).1 = some c ∧
    c.chain = .mfg ∧
    (hsStep Glob.init (.peer exDev 0 false true .server (List.replicate 16 9))).1 = some c0 ∧ c0.chain = .ident :=
  ⟨_, _, _, rfl, rfl, rfl, rfl, rfl⟩

end Verif.Tls
