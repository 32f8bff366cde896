import Verif.Dps.PinModel
/-!
Properties of the check of the provisioning server (C124).
-/
namespace Verif.Dps.Pin

open Verif.EpAddr (Bytes)

/-- Nothing is wrong with a certificate: it is timely and either an anchor of the
device or signed by the next one. -/
def Good : List Cert → Prop
  | [] => True
  | c :: l => c.timely = true ∧ (c.anchor = true ∨ (l ≠ [] ∧ c.signed = true)) ∧ Good l

/-- A certificate has the pinned fingerprint. -/
def Pinned (g : Cfg) (c : Cert) : Prop := g.md ≠ 0 ∧ ∃ d, c.digest g.md = some d ∧ g.fp = some d

/-- A certificate with the pinned fingerprint vouches for the first certificate of the
chain: all the certificates before it are signed by the next. -/
def Vouched (g : Cfg) : List Cert → Prop
  | [] => False
  | c :: l => Pinned g c ∨ (c.signed = true ∧ Vouched g l)

theorem flags_zero (c : Cert) (b : Bool) :
    mbFlags c b = 0 ↔ c.timely = true ∧ (c.anchor = true ∨ (b = false ∧ c.signed = true)) := by
  unfold mbFlags
  cases c.timely <;> cases c.anchor <;> cases c.signed <;> cases b <;> simp

theorem good_cons (c : Cert) (l : List Cert) : Good (c :: l) ↔ mbFlags c l.isEmpty = 0 ∧ Good l := by
  rw [flags_zero]
  cases l <;> simp [Good, and_assoc]

/-- **C124 (no fingerprint).** Without a pinned fingerprint and without `skip verify`,
a server is accepted exactly if nothing is wrong with any certificate of its chain;
with `skip verify` every server is accepted. -/
theorem without_pin (g : Cfg) (hg : g.md = 0) (chain : List Cert) :
    accepts g chain = true ↔ chain ≠ [] ∧ (g.skip = true ∨ Good chain) := by
  have key : ∀ (l : List Cert) (depth : Nat),
      ((check g l depth).1 = true ↔ g.skip = true ∨ Good l) ∧
      ((check g l depth).1 = true → (check g l depth).2 = some false) := by
    intro l
    induction l with
    | nil => intro depth; simp [check, Good]
    | cons c l ih =>
      intro depth
      obtain ⟨i1, i2⟩ := ih (depth + 1)
      by_cases hr : (check g l (depth + 1)).1 = true
      · have hd := i2 hr
        have hskip := i1.1 hr
        unfold check
        dsimp only
        rw [if_pos hr, hd]
        simp only [tlsVerify, verify, digestOf, if_pos hg]
        have h1 : ¬ (g.md ≠ 0 ∧ g.fp = some []) := fun h => h.1 hg
        rw [if_neg h1]
        by_cases hf : mbFlags c l.isEmpty = 0
        · rw [if_pos hf]
          simp only [hf]
          refine ⟨?_, by simp⟩
          rw [good_cons]
          simpa [hf] using hskip
        · rw [good_cons]
          by_cases hs : g.skip = true
          · simp [hs, hf, hg]
          · simp [hs, hf, hg]
      · unfold check
        dsimp only
        rw [if_neg hr]
        refine ⟨?_, fun h => absurd h hr⟩
        rw [good_cons]
        constructor
        · intro h; exact absurd h hr
        · intro h
          exact absurd (i1.2 (h.imp id (·.2))) hr
  unfold accepts
  have := (key chain 0).1
  cases chain with
  | nil => simp
  | cons c l => simpa using this

/-- A chain with an anchor at its end is accepted; one that ends otherwise is not. -/
example : accepts {} [⟨fun _ => none, false, true, true⟩, ⟨fun _ => none, true, false, true⟩] = true ∧
    accepts {} [⟨fun _ => none, false, true, true⟩, ⟨fun _ => none, false, false, true⟩] = false := by decide

/-- **C124 (fingerprint), exact.** With a pinned fingerprint, and if all digests can be
computed, a server is accepted exactly if nothing is wrong with its own certificate or
any certificate it presents has the fingerprint.  What is wrong with the other
certificates does not count. -/
theorem with_pin (g : Cfg) (hg : g.md ≠ 0) (c : Cert) (l : List Cert)
    (hd : ∀ x ∈ c :: l, x.digest g.md ≠ none) :
    accepts g (c :: l) = true ↔ mbFlags c l.isEmpty = 0 ∨ ∃ x ∈ c :: l, Pinned g x := by
  have hcalc : ∀ x ∈ c :: l, ∃ d, digestOf g x = some d ∧ x.digest g.md = some d := by
    intro x hx
    cases h : x.digest g.md with
    | none => exact absurd h (hd x hx)
    | some d => exact ⟨d, by simp [digestOf, hg, h], rfl⟩
  have key : ∀ (l : List Cert) (depth : Nat), 0 < depth → (∀ x ∈ l, ∃ d, digestOf g x = some d ∧ x.digest g.md = some d) →
      ∃ v, check g l depth = (true, some v) ∧ (v = true ↔ ∃ x ∈ l, Pinned g x) := by
    intro l
    induction l with
    | nil => intro depth _ _; exact ⟨false, rfl, by simp⟩
    | cons y l ih =>
      intro depth hdp hx
      obtain ⟨v, hv, hiff⟩ := ih (depth + 1) (by omega) fun x h => hx x (by simp [h])
      obtain ⟨d, hc, hdig⟩ := hx y (by simp)
      have hpin : Pinned g y ↔ g.fp = some d := by
        simp [Pinned, hg, hdig]
      refine ⟨if g.fp = some d then true else v, ?_, ?_⟩
      · unfold check
        simp only [hv, if_true, tlsVerify, verify, hc]
        have e : (if g.md ≠ 0 ∧ g.fp = some d then true else v) = (if g.fp = some d then true else v) := by
          simp [hg]
        rw [e]
        by_cases hf : mbFlags y l.isEmpty = 0
        · simp [hf]
        · simp [hf, hg, hdp]
      · by_cases hp : g.fp = some d
        · simp [hp, hpin]
        · simp [hp, hpin, hiff]
  obtain ⟨v, hv, hiff⟩ := key l 1 (by omega) fun x h => hcalc x (by simp [h])
  obtain ⟨d, hc, hdig⟩ := hcalc c (by simp)
  have hpin : Pinned g c ↔ g.fp = some d := by simp [Pinned, hg, hdig]
  unfold accepts check
  simp only [hv, if_true, tlsVerify, verify, hc]
  have e : (if g.md ≠ 0 ∧ g.fp = some d then true else v) = (if g.fp = some d then true else v) := by
    simp [hg]
  rw [e]
  have hany : (∃ x ∈ c :: l, Pinned g x) ↔ g.fp = some d ∨ v = true := by
    simp [hpin, hiff]
  rw [hany]
  by_cases hf : mbFlags c l.isEmpty = 0
  · simp [hf]
  · by_cases hp : g.fp = some d
    · simp [hf, hg, hp]
    · cases v <;> simp [hf, hg, hp]

/-- **C124 (fingerprint), partial.** With a pinned fingerprint, a server that presents
one certificate only is accepted exactly if nothing is wrong with it or it has the
fingerprint.  (For longer chains the claim is false: `pin_untrusted_false`,
`pin_unsigned_false`.) -/
theorem with_pin_single_partial (g : Cfg) (hg : g.md ≠ 0) (c : Cert) (hd : c.digest g.md ≠ none) :
    accepts g [c] = true ↔ Good [c] ∨ Vouched g [c] := by
  rw [with_pin g hg c [] (by simpa using hd), good_cons]
  simp [Good, Vouched]

/-- A pinned fingerprint of one byte, algorithm 6 (modelling convention). -/
def cfg0 : Cfg := { md := 6, fp := some [7] }

/-- The pinned certificate is accepted, another one is not. -/
example : accepts cfg0 [⟨fun _ => some [7], false, false, true⟩] = true ∧
    accepts cfg0 [⟨fun _ => some [8], false, false, true⟩] = false := by decide

/-- **C124 is false: a fingerprint opens the device to everybody.** Anybody can make
two certificates, the second signing the first.  No trust anchor and no fingerprint
matches, and without a fingerprint the device refuses them; but with a fingerprint
the complaint about the second certificate is dropped, nothing is wrong with the first
one, and the device accepts the server. -/
theorem pin_untrusted_false :
    let chain : List Cert := [⟨fun _ => some [1], false, true, true⟩, ⟨fun _ => some [2], false, false, true⟩]
    accepts cfg0 chain = true ∧ accepts {} chain = false ∧ ¬ Good chain ∧ ¬ Vouched cfg0 chain ∧
      ∀ c ∈ chain, ¬ Pinned cfg0 c := by
  refine ⟨by decide, by decide, by simp [Good], by simp [Vouched, Pinned, cfg0], by simp [Pinned, cfg0]⟩

/-- **C124 is false: a copy of the pinned certificate is enough.** A server that
presents a certificate of its own and, behind it, a copy of the pinned certificate,
which is public, is accepted although the pinned certificate did not sign the
server's. -/
theorem pin_unsigned_false :
    let chain : List Cert := [⟨fun _ => some [1], false, false, true⟩, ⟨fun _ => some [7], false, false, true⟩]
    accepts cfg0 chain = true ∧ ¬ Good chain ∧ ¬ Vouched cfg0 chain := by
  refine ⟨by decide, by simp [Good], by simp [Vouched, Pinned, cfg0]⟩

/-- **C124 (what a fingerprint still guarantees), partial.** With a pinned fingerprint
an accepted server presented the pinned certificate, or a certificate of its own that
is timely and is an anchor or signed by the next certificate presented. -/
theorem pin_partial (g : Cfg) (hg : g.md ≠ 0) (chain : List Cert)
    (hd : ∀ x ∈ chain, x.digest g.md ≠ none) (h : accepts g chain = true) :
    (∃ x ∈ chain, Pinned g x) ∨
    ∃ c l, chain = c :: l ∧ c.timely = true ∧ (c.anchor = true ∨ (l ≠ [] ∧ c.signed = true)) := by
  cases chain with
  | nil => simp [accepts] at h
  | cons c l =>
    rcases (with_pin g hg c l hd).1 h with h | h
    · right
      refine ⟨c, l, rfl, ?_⟩
      have := (flags_zero _ _).1 h
      refine ⟨this.1, ?_⟩
      rcases this.2 with h | ⟨h, h'⟩
      · exact .inl h
      · exact .inr ⟨by simpa using h, h'⟩
    · exact .inl h

end Verif.Dps.Pin
