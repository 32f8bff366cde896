import Verif.Dhcp.Lemmas
/-!
Properties of the DHCP options of the provisioning client (C122).
-/
namespace Verif.Dhcp

open Verif.EpAddr (Bytes)

/-- **C122 (texts).** For every text and every buffer, also a missing one, the call is
defined.  A text that denotes bytes gives their number, and the buffer holds as many
of them as fit with zeros behind; every other text gives the error. -/
theorem hex_text (t : Bytes) (ht : t ≠ []) (n : Option Nat) :
    (∀ r, Reads t r → hexStringToBytes t n = .ok (some r.length,
      n.map fun n => (r.map UInt8.ofNat).take n ++ List.replicate (n - r.length) 0)) ∧
    ((¬ ∃ r, Reads t r) → ∃ b, hexStringToBytes t n = .ok (none, b)) := by
  unfold hexStringToBytes
  rw [if_neg ht]
  constructor
  · intro r hr
    rw [rounds_reads hr _ _ _ (Nat.le_refl _)]
    cases n with
    | none => simp [puts_none]
    | some n => simp [puts_some]
  · intro hn
    rcases rounds_total t.length t (Nat.le_refl _) with h | h
    · exact absurd h hn
    · exact h _ _ _ (Nat.le_refl _)

/-- **C122 (what a text denotes).** No text denotes two lists of bytes. -/
theorem reads_unique {t : Bytes} {r s : List Nat} (hr : Reads t r) (hs : Reads t s) :
    r.map UInt8.ofNat = s.map UInt8.ofNat := by
  by_cases ht : t = []
  · subst ht; cases hr; cases hs; rfl
  · have a := (hex_text t ht (some (r.length + s.length))).1 r hr
    have b := (hex_text t ht (some (r.length + s.length))).1 s hs
    rw [a] at b
    injection b with b
    obtain ⟨hl, hb⟩ := Prod.mk.inj b
    have hl : r.length = s.length := Option.some.inj hl
    simp only [Option.map_some, Option.some.injEq] at hb
    have h1 : ((r.map UInt8.ofNat).take (r.length + s.length)).length =
        ((s.map UInt8.ofNat).take (r.length + s.length)).length := by simp; omega
    have := (List.append_inj hb h1).1
    rw [List.take_of_length_le (by simp), List.take_of_length_le (by simp)] at this
    exact this

/-- **C122 (round trip).** Every list of bytes, written as the ISC client writes it
into its leases file or with two digits for every byte, is read back. -/
theorem hex_round_trip (l : List UInt8) (hl : l ≠ []) :
    hexStringToBytes (isc l) (some l.length) = .ok (some l.length, some l) ∧
    hexStringToBytes (l.flatMap two) (some l.length) = .ok (some l.length, some l) := by
  have hmap : (l.map (·.toNat)).map UInt8.ofNat = l := by
    rw [List.map_map]
    exact (List.map_congr_left fun a _ => by simp).trans (List.map_id l)
  have hi : isc l ≠ [] := by
    cases l with
    | nil => exact absurd rfl hl
    | cons v l => cases l <;> · simp only [isc, brief, two]; split <;> simp
  have hp : l.flatMap two ≠ [] := by
    cases l with
    | nil => exact absurd rfl hl
    | cons v l => simp [two]
  have a := (hex_text _ hi (some l.length)).1 _ (reads_isc l)
  have b := (hex_text _ hp (some l.length)).1 _ (reads_plain l)
  rw [hmap] at a b
  simp at a b
  exact ⟨a, b⟩

/-- The bytes 1, 10, 0 and 255. -/
example : isc [1, 10, 0, 255] = [49, 58, 97, 58, 48, 58, 102, 102] ∧
    hexStringToBytes [49, 58, 97, 58, 48, 58, 102, 102] (some 4) = .ok (some 4, some [1, 10, 0, 255]) := by
  decide

/-- **C122 is false of malformed texts.** Empty places between colons are read as
zeros, and "123" as the bytes 0x12 and 3, instead of giving the error. -/
theorem hex_malformed_false :
    hexStringToBytes [58, 58] (some 4) = .ok (some 2, some [0, 0, 0, 0]) ∧
    hexStringToBytes [49, 50, 51] (some 4) = .ok (some 2, some [18, 3, 0, 0]) := by decide

/-- A text that is refused. -/
example : (hexStringToBytes [49, 120] none) = .ok (none, none) := by decide

/-- **C122 (options).** For every buffer the parsing is defined and reads only bytes of
the buffer.  It succeeds exactly for the buffers that consist of options with one of
the three codes and with data, and it finds the data of the last option with each
code. -/
theorem parse_exact (c : Codes) (hc : Distinct c) (opts : Bytes) (ho : opts ≠ []) :
    (∀ os, Received c opts os → ∃ f, parse c opts = .ok (some f) ∧ Meant c os f) ∧
    ((¬ ∃ os, Received c opts os) → parse c opts = .ok none) := by
  have hl : ¬ opts.length = 0 := fun h => ho (List.length_eq_zero_iff.1 h)
  unfold parse
  rw [if_neg hl]
  constructor
  · rintro os ⟨tail, ht, he, hk⟩
    exact ⟨_, loop_back os _ 0 {} tail (by simpa using he) ht hk (by omega), applies_meant hc os hk⟩
  · intro hn
    rcases loop_forth (c := c) (opts := opts) opts.length 0 {} (by omega) with h | ⟨os, tail, hd, ht, hk⟩
    · exact h
    · exact absurd ⟨os, tail, ht, by simpa using hd, hk⟩ hn

/-- The default codes differ; the options below are taken, with a byte behind them. -/
example : Distinct {} ∧
    Received {} [200, 2, 104, 105, 201, 1, 7, 200, 1, 104, 255] [⟨200, [104, 105]⟩, ⟨201, [7]⟩, ⟨200, [104]⟩] ∧
    parse {} [200, 2, 104, 105, 201, 1, 7, 200, 1, 104, 255] = .ok (some ⟨some [104], some [7], none⟩) := by
  refine ⟨by simp [Distinct], ⟨[255], by decide, by decide, ?_⟩, by decide⟩
  simp [Takes]

/-- **C122 is false of foreign options.** One option with another code, which DHCP
servers send to other software, makes the client refuse the whole buffer. -/
theorem parse_foreign_false :
    parse {} (enc [⟨200, [104]⟩]) = .ok (some ⟨some [104], none, none⟩) ∧
    parse {} (enc [⟨200, [104]⟩, ⟨43, [1]⟩]) = .ok none := by decide

/-- What a call did to the values: `f` was received, `md` is its algorithm. -/
def Set (e : Env) (x : Ctx) (f : Found) (md : Nat) (x' : Ctx) : Prop :=
  x'.fp = f.fingerprint ∧ x'.fpMd = md ∧ x'.provisioned = x.provisioned ∧ x'.codes = x.codes ∧
  ((current x = f.endpoint ∧ f.endpoint ≠ none ∧ x'.eps = x.eps) ∨
   (¬ (current x = f.endpoint ∧ f.endpoint ≠ none) ∧
     (EpAddr.servers x'.eps).all =
      match f.endpoint with
      | some u => if EpAddr.Fits e.lim u ∧ e.mem = true then [(u, .name none)] else []
      | none => []))

/-- **C122 (values).** Every call is defined and keeps the list of addresses intact.
An error or `NOT_CHANGED` changes nothing.  `NOT_CHANGED` means that the received
values are those in use, `UPDATED` and `NEED_REPROVISION` that they are now in use;
`UPDATED` is given exactly if the address was in use before and the device is
provisioned. -/
theorem set_values_partial (e : Env) (x : Ctx) (hx : EpAddr.Inv e.lim x.eps) (hc : Distinct x.codes)
    (opts : Bytes) (ho : opts ≠ []) :
    ∃ r x', setValues e x opts = .ok (r, x') ∧ EpAddr.Inv e.lim x'.eps ∧
      ((r = .error ∨ r = .notChanged) → x' = x) ∧
      (r = .error ↔ ¬ ∃ os f md, Received x.codes opts os ∧ Meant x.codes os f ∧ mdType e f = some md ∧
        (FpOk e md f.fingerprint ∨
          (current x = f.endpoint ∧ f.endpoint ≠ none ∧ x.fpMd = md ∧ x.fp = f.fingerprint))) ∧
      (r ≠ .error → ∃ os f md, Received x.codes opts os ∧ Meant x.codes os f ∧ mdType e f = some md ∧
        (r = .notChanged ↔ current x = f.endpoint ∧ f.endpoint ≠ none ∧ x.fpMd = md ∧ x.fp = f.fingerprint) ∧
        (r ≠ .notChanged → FpOk e md f.fingerprint ∧ Set e x f md x' ∧
          (r = .updated ↔ (current x = f.endpoint ∧ f.endpoint ≠ none) ∧ x.provisioned = true))) := by
  have hp := parse_exact x.codes hc opts ho
  by_cases hos : ∃ os, Received x.codes opts os
  · obtain ⟨os, hr⟩ := hos
    obtain ⟨f, hpf, hm⟩ := hp.1 os hr
    have uniq : ∀ os' f', Received x.codes opts os' → Meant x.codes os' f' → f' = f := by
      intro os' f' hr' hm'
      obtain ⟨g, hg, hmg⟩ := hp.1 os' hr'
      rw [hpf] at hg
      have : f = g := by injection hg with hg; exact Option.some.inj hg
      exact this ▸ meant_unique hm' hmg
    have hlen : ∀ u, f.endpoint = some u → 0 < u.length ∧ u.length ≤ 255 := by
      intro u hu
      rw [hm.1] at hu
      unfold lastOf at hu
      obtain ⟨o, ho, rfl⟩ := Option.map_eq_some_iff.1 hu
      have := List.mem_of_getLast? ho
      obtain ⟨_, _, _, hk⟩ := hr
      have := hk o (List.mem_filter.1 this).1
      exact ⟨by have := this.2.1; omega, this.2.2⟩
    have hsame : ∀ a b : Option Bytes, (sameStr a b = true) ↔ a = b := by
      intro a b; cases a <;> cases b <;> simp [sameStr]
    have hcur0 : current x ≠ some [] := by
      intro h
      unfold current at h
      obtain ⟨p, hp, e0⟩ := Option.map_eq_some_iff.1 h
      have := List.mem_of_getElem? hp
      simp only [EpAddr.servers, List.mem_map] at this
      obtain ⟨i, hi, rfl⟩ := this
      have := (hx.fits i hi).1
      simp at e0
      rw [e0] at this
      simp at this
    have hsel : (current x = some (f.endpoint.getD [])) ↔ (current x = f.endpoint ∧ f.endpoint ≠ none) := by
      cases hfe : f.endpoint with
      | none => simp [hcur0]
      | some u => simp
    cases hmd : mdType e f with
    | none =>
      refine ⟨.error, x, by simp [setValues, hpf, Out.bind, hmd], hx, fun _ => rfl, ?_, fun h => absurd rfl h⟩
      simp only [true_iff]
      rintro ⟨os', f', md, hr', hm', hmd', _⟩
      rw [uniq os' f' hr' hm', hmd] at hmd'
      cases hmd'
    | some md =>
      by_cases hall : current x = f.endpoint ∧ f.endpoint ≠ none ∧ x.fpMd = md ∧ x.fp = f.fingerprint
      · have hcs := hsel.2 ⟨hall.1, hall.2.1⟩
        refine ⟨.notChanged, x, ?_, hx, fun _ => rfl, ?_, fun _ => ⟨os, f, md, hr, hm, hmd, ?_, fun h => absurd rfl h⟩⟩
        · simp only [setValues, hpf, Out.bind, hmd, isSelected_eq hx, hcs]
          rw [if_pos ⟨hall.2.2.1, by simp, (hsame _ _).2 hall.2.2.2⟩]
        · simp only [reduceCtorEq, false_iff, Classical.not_not]
          exact ⟨os, f, md, hr, hm, hmd, .inr hall⟩
        · simp only [true_iff]; exact hall
      · have hno : ¬ (x.fpMd = md ∧ decide (current x = some (f.endpoint.getD [])) = true ∧
            sameStr x.fp f.fingerprint = true) := by
          rintro ⟨a, b, d⟩
          have := hsel.1 (of_decide_eq_true b)
          exact hall ⟨this.1, this.2, a, (hsame _ _).1 d⟩
        by_cases hfp : FpOk e md f.fingerprint
        · -- the fingerprint is set
          have hsf : ∃ y, setFingerprint e x md f.fingerprint = some y ∧ y = { x with fp := f.fingerprint, fpMd := md } := by
            refine ⟨_, ?_, rfl⟩
            unfold setFingerprint
            rw [if_neg]
            · split
              · rename_i h
                have := (hsame _ _).1 h.2
                rw [← this, ← h.1]
              · rfl
            · rintro ⟨h0, h1⟩
              rcases hfp with h | ⟨h2, h3⟩
              · exact h0 h
              · rcases h1 with h1 | h1
                · rw [h1] at h2; cases h2
                · exact h1 h3
          obtain ⟨y, hy, hye⟩ := hsf
          have hyi : EpAddr.Inv e.lim y.eps := by rw [hye]; exact hx
          have hyc : current y = current x := by rw [hye]; rfl
          by_cases hcs : current x = some (f.endpoint.getD [])
          · have h2 := hsel.1 hcs
            have hde : dhcpSetEndpoint e y f = .ok (false, y) := by
              unfold dhcpSetEndpoint
              rw [isSelected_eq hyi, hyc]
              simp [hcs, Out.bind]
            refine ⟨if y.provisioned = false then .needReprovision else .updated, y, ?_, hyi, ?_, ?_, fun _ => ⟨os, f, md, hr, hm, hmd, ?_, ?_⟩⟩
            · simp only [setValues, hpf, Out.bind, hmd, isSelected_eq hx]
              rw [if_neg hno]
              simp only [hy, hde]
              simp
            · intro h; split at h <;> simp at h
            · constructor
              · intro h; split at h <;> simp at h
              · intro h; exact absurd ⟨os, f, md, hr, hm, hmd, .inl hfp⟩ h
            · constructor
              · intro h; split at h <;> simp at h
              · intro h; exact absurd h hall
            · intro _
              refine ⟨hfp, ⟨by rw [hye], by rw [hye], by rw [hye], by rw [hye], .inl ⟨h2.1, h2.2, by rw [hye]⟩⟩, ?_⟩
              rw [hye]
              cases x.provisioned <;> simp [h2]
          · have h2 : ¬ (current x = f.endpoint ∧ f.endpoint ≠ none) := fun h => hcs (hsel.2 h)
            have htake : (f.endpoint.getD []).take 255 = f.endpoint.getD [] := by
              cases hfe : f.endpoint with
              | none => rfl
              | some u => exact List.take_of_length_le (hlen u hfe).2
            obtain ⟨rr, s', hre, hri, hrs⟩ := reinit_eq (lim := e.lim) e.mem (s := y.eps) (f.endpoint.getD [])
            have hone : ¬ (y.eps.items.length = 1 ∧ EpAddr.contains y.eps (f.endpoint.getD []) = true) := by
              rintro ⟨h1, hcon⟩
              obtain ⟨i, hi⟩ := List.length_eq_one_iff.1 h1
              have hu : i.uri = f.endpoint.getD [] := by
                simpa [EpAddr.contains, hi] using hcon
              have hcy : current y = some i.uri := by
                have := EpAddr.cur_lt hyi (by rw [hi]; simp)
                have h0 : (EpAddr.servers y.eps).cur = 0 := by rw [hi] at this; simpa using this
                unfold current
                rw [h0]
                simp [EpAddr.servers, hi]
              exact hcs (by rw [← hyc, hcy, hu])
            have hde : dhcpSetEndpoint e y f = .ok (true, { y with eps := s' }) := by
              unfold dhcpSetEndpoint
              rw [isSelected_eq hyi, hyc]
              simp only [hcs, decide_false, Out.bind, htake]
              unfold setEndpoint
              rw [if_neg hone]
              simp only [hre, Out.bind]
              simp
            refine ⟨.needReprovision, { y with eps := s' }, ?_, hri, ?_, ?_, fun _ => ⟨os, f, md, hr, hm, hmd, ?_, ?_⟩⟩
            · simp only [setValues, hpf, Out.bind, hmd, isSelected_eq hx]
              rw [if_neg hno]
              simp only [hy, hde]
              simp
            · intro h; simp at h
            · constructor
              · intro h; simp at h
              · intro h; exact absurd ⟨os, f, md, hr, hm, hmd, .inl hfp⟩ h
            · constructor
              · intro h; simp at h
              · intro h; exact absurd h hall
            · intro _
              refine ⟨hfp, ⟨by rw [hye], by rw [hye], by rw [hye], by rw [hye], .inr ⟨h2, ?_⟩⟩, ?_⟩
              · show (EpAddr.servers s').all = _
                rw [hrs]
                cases hfe : f.endpoint with
                | none => simp [EpAddr.Fits]
                | some u => simp
              · simp only [reduceCtorEq, false_iff]
                exact fun h => h2 h.1
        · have hsf : setFingerprint e x md f.fingerprint = none := by
            unfold setFingerprint
            rw [if_pos]
            refine ⟨fun h => hfp (.inl h), ?_⟩
            cases ha : e.allowed md with
            | false => exact .inl rfl
            | true => exact .inr fun h => hfp (.inr ⟨ha, h⟩)
          refine ⟨.error, x, ?_, hx, fun _ => rfl, ?_, fun h => absurd rfl h⟩
          · simp only [setValues, hpf, Out.bind, hmd, isSelected_eq hx]
            rw [if_neg hno]
            simp only [hsf]
          · simp only [true_iff]
            rintro ⟨os', f', md', hr', hm', hmd', h⟩
            rw [uniq os' f' hr' hm'] at hmd' h
            rw [hmd] at hmd'
            cases hmd'
            rcases h with h | h
            · exact hfp h
            · exact hall h
  · have hn := hp.2 hos
    refine ⟨.error, x, by simp [setValues, hn, Out.bind], hx, fun _ => rfl, ?_, fun h => absurd rfl h⟩
    simp only [true_iff]
    rintro ⟨os, f, md, hr, _⟩
    exact hos ⟨os, hr⟩

/-- A client with one address and no fingerprint (modelling convention). -/
def ctx0 : Ctx :=
  { eps := { items := [⟨0, [104], .name none⟩], sel := some 0, next := 1 }, provisioned := true }

/-- An environment that knows SHA-256 under the name "S" with fingerprints of two
bytes (modelling convention). -/
def env0 : Env :=
  { mdOf := fun n => if n = [83] then some 6 else none, allowed := fun m => m == 6,
    mdSize := fun m => if m = 6 then some 2 else none, lim := 128, mem := true }

/-- A fingerprint for the address in use: updated; the same options again: not
changed. -/
example : EpAddr.Inv env0.lim ctx0.eps ∧
    setValues env0 ctx0 (enc [⟨200, [104]⟩, ⟨201, [1, 2]⟩, ⟨202, [83]⟩]) =
      .ok (.updated, { ctx0 with fp := some [1, 2], fpMd := 6 }) ∧
    setValues env0 { ctx0 with fp := some [1, 2], fpMd := 6 }
      (enc [⟨200, [104]⟩, ⟨201, [1, 2]⟩, ⟨202, [83]⟩]) =
      .ok (.notChanged, { ctx0 with fp := some [1, 2], fpMd := 6 }) := by
  refine ⟨⟨by decide, by decide, by decide, ?_, by decide, ?_⟩, by decide, by decide⟩
  · simp [ctx0, env0, EpAddr.Fits]
  · simp [ctx0]

/-- **C122 is false of unusable addresses.** An address of 128 characters, one more
than an address may have, is not refused: the call reports that the device must be
provisioned again, and no address is left to do so. -/
theorem address_kept_false :
    setValues env0 ctx0 (enc [⟨200, List.replicate 128 104⟩]) =
      .ok (.needReprovision, { ctx0 with eps := { items := [], sel := none, next := 1 } }) := by
  decide +kernel

/-- **C122 is false of options without an address.** A fingerprint alone removes the
address in use; a fingerprint without the name of its algorithm replaces the pinned
one by none. -/
theorem fingerprint_alone_false :
    setValues env0 { ctx0 with fp := some [1, 2], fpMd := 6 } (enc [⟨201, [9, 9, 9]⟩]) =
      .ok (.needReprovision,
        { ctx0 with fp := some [9, 9, 9], fpMd := 0, eps := { items := [], sel := none, next := 1 } }) := by
  decide +kernel

end Verif.Dhcp
