import Verif.Pstat.Lemmas

/-!
Properties of the provisioning status (C31).
-/

namespace Verif.Pstat

open Verif.Rep (Bytes b Val Rep)
open Verif.Acl (Dos Id nilId)
open Verif.Doxm (Doxm)

/-! ## What always holds -/

/-- The invariant of a device: the state is one of the five states; outside of RESET
and RFOTM the device is owned, with an owner and an identifier; in RFPRO and RFNOP
each security resource has an owner; the device is operational exactly in RFNOP. -/
structure Inv (d : Dev) : Prop where
  valid : d.ps.s ≠ none
  idle : d.ps.rip = false
  isop : d.ps.isop = true ↔ d.ps.s = some .rfnop
  owned : d.ps.s = some .rfpro ∨ d.ps.s = some .rfnop ∨ d.ps.s = some .sreset →
    d.doxm.owned = true ∧ d.doxm.devowner ≠ nilId ∧ d.doxm.device ≠ nilId
  owners : d.ps.s = some .rfpro ∨ d.ps.s = some .rfnop →
    d.ps.rowner ≠ nilId ∧ d.doxm.rowner ≠ nilId ∧ d.aclOwner ≠ nilId ∧ d.credOwner ≠ nilId
  wf : WF d.ps

/-- What is assumed of the environment of an operation: generating a key pair
succeeds, and the factory presets callback of the application keeps the invariant;
the device id is a UUID that is not nil; there are at most three ownership transfer
methods; the baseline properties of the resource are `rt` and `if`. -/
structure OpOk (e : Env) (o : Op) : Prop where
  keypair : e.keypair = true
  preset : ∀ f, e.preset = some f → ∀ d, Inv d → Inv (f d)
  id : ∀ i, o = .selfOwn i → i ≠ nilId ∧ i.length = 16
  oxms : ∀ doc oxms rep, o = .doxm doc oxms rep → oxms.length ≤ 3
  base : ∀ r, o = .restart r → ∀ p ∈ r, (p.1 = b "rt" ∨ p.1 = b "if") ∧ ∃ l, p.2 = .strs l

theorem fresh_wf (s : Option Dos) (p i : Bool) (cm tm : BitVec 32) (rip : Bool) :
    WF ⟨s, p, i, cm, tm, 3, 4, nilId, rip⟩ :=
  ⟨show nilId.length = 16 by decide, show Sec.toInt32 3 = 3 by decide, show Sec.toInt32 4 = 4 by decide⟩

theorem checkPs_rfotm (ps : Pstat) (h : ps.isop = false) :
    checkPs { ps with p := true, s := some .rfotm, cm := 2, tm := 0 } = true := by
  simp [checkPs, h]

/-- Entering RFOTM: with an unowned device it succeeds; otherwise it is refused. -/
theorem rfotm_spec (e : Env) (ps : Pstat) (d : Dev) (hi : ps.isop = false) (hr : ps.rip = false) (hw : WF ps)
    (hp : ∀ f, e.preset = some f → ∀ d, Inv d → Inv (f d)) :
    (d.doxm.owned = false ∧ d.doxm.devowner = nilId ∧ (rfotm e ps d).1 = true ∧ Inv (rfotm e ps d).2 ∧
      (e.preset = none → (rfotm e ps d).2 = { d with ps := { ps with p := false, s := some .rfotm, cm := 2, tm := 0 } })) ∨
    ((d.doxm.owned = true ∨ d.doxm.devowner ≠ nilId) ∧ rfotm e ps d = (false, { d with ps := { d.ps with rip := false } })) := by
  by_cases hd : d.doxm.owned = false ∧ d.doxm.devowner = nilId
  · left
    refine ⟨hd.1, hd.2, ?_⟩
    have hinv : Inv { d with ps := { ps with p := true, s := some .rfotm, cm := 2, tm := 0 } } :=
      ⟨by simp, hr, by simp [hi], by simp, by simp, ⟨hw.len, hw.om, hw.sm⟩⟩
    unfold rfotm
    dsimp only
    rw [if_neg (by rw [checkPs_rfotm ps hi]; simp [hd.1, hd.2])]
    cases hf : e.preset with
    | none =>
      exact ⟨rfl, ⟨by simp, hr, by simp [hi], by simp, by simp, ⟨hw.len, hw.om, hw.sm⟩⟩, fun _ => rfl⟩
    | some f =>
      have := hp f hf _ hinv
      refine ⟨rfl, ?_, fun h => by cases h⟩
      exact ⟨this.valid, this.idle, this.isop, this.owned, this.owners, ⟨this.wf.len, this.wf.om, this.wf.sm⟩⟩
  · right
    have hd' : d.doxm.owned = true ∨ d.doxm.devowner ≠ nilId := by
      by_cases h : d.doxm.devowner = nilId
      · exact .inl (by revert hd; cases d.doxm.owned <;> simp [h])
      · exact .inr h
    refine ⟨hd', ?_⟩
    unfold rfotm
    dsimp only
    rw [if_pos]
    rcases hd' with h | h
    · simp [h]
    · simp [h]

/-- A reset succeeds and ends in RFOTM with the device unowned, without credentials
and without owners of the security resources. -/
theorem reset_spec (e : Env) (d : Dev) (hk : e.keypair = true) (hd : d.ps.rip = false)
    (hp : ∀ f, e.preset = some f → ∀ d, Inv d → Inv (f d)) :
    (resetDevice e d).1 = true ∧ Inv (resetDevice e d).2 ∧
    (e.preset = none → (resetDevice e d).2 =
      ⟨⟨some .rfotm, false, false, 2, 0, 3, 4, nilId, false⟩, Doxm.setDefault e.sct e.fresh, nilId, nilId, [], false⟩) := by
  have hh : resetDevice e d = rfotm e
      { zero with p := false, isop := false, cm := 1, tm := 2, om := 3, sm := 4, rowner := nilId }
      { d with ps := { d.ps with rip := true }, pending := false, doxm := Doxm.setDefault e.sct e.fresh,
               creds := [], credOwner := nilId, aclOwner := nilId } := by
    unfold resetDevice handleState resetNow
    simp [zero, hd, hk]
  rw [hh]
  rcases rfotm_spec e { zero with p := false, isop := false, cm := 1, tm := 2, om := 3, sm := 4, rowner := nilId }
      { d with ps := { d.ps with rip := true }, pending := false, doxm := Doxm.setDefault e.sct e.fresh,
               creds := [], credOwner := nilId, aclOwner := nilId } rfl rfl (fresh_wf _ _ _ _ _ _) hp with
    ⟨-, -, h1, h2, h3⟩ | ⟨h1, -⟩
  · refine ⟨h1, h2, fun h => ?_⟩
    rw [h3 h]
    rfl
  · rcases h1 with h1 | h1
    · cases h1
    · exact absurd rfl h1

/-- Requesting RFPRO, RFNOP or SRESET: granted exactly if the device is provisioned. -/
theorem handleState_enter (e : Env) (ps : Pstat) (d : Dev)
    (hs : ps.s = some .rfpro ∨ ps.s = some .rfnop ∨ ps.s = some .sreset) :
    (Provisioned ps d ∧ ∃ cm, handleState e ps d = (true, { d with ps :=
        { ps with p := false, cm := cm, tm := 0, isop := decide (ps.s = some .rfnop) } })) ∨
    (¬ Provisioned ps d ∧ handleState e ps d = (false, d)) := by
  have aux : ∀ (ps' : Pstat), ps'.rowner = ps.rowner → (Provisioned ps' d ↔ Provisioned ps d) := by
    intro ps' h
    constructor
    · intro ⟨h1, h2, h3, h4⟩; exact ⟨h1, h2, h3, by rw [← h]; exact h4⟩
    · intro ⟨h1, h2, h3, h4⟩; exact ⟨h1, h2, h3, by rw [h]; exact h4⟩
  obtain ⟨s, p, i, cm, tm, om, sm, ro, rip⟩ := ps
  dsimp only at hs
  rcases hs with rfl | rfl | rfl
  · rcases enter_eq ⟨some .rfpro, true, false, 0, 0, om, sm, ro, rip⟩ d (by simp [checkPs]) with ⟨h1, h2⟩ | ⟨h1, h2⟩
    · exact .inl ⟨(aux ⟨some .rfpro, true, false, 0, 0, om, sm, ro, rip⟩ rfl).1 h1, 0, h2⟩
    · exact .inr ⟨fun h => h1 ((aux ⟨some .rfpro, true, false, 0, 0, om, sm, ro, rip⟩ rfl).2 h), h2⟩
  · rcases enter_eq ⟨some .rfnop, true, true, 0, 0, om, sm, ro, rip⟩ d (by simp [checkPs]) with ⟨h1, h2⟩ | ⟨h1, h2⟩
    · exact .inl ⟨(aux ⟨some .rfnop, true, true, 0, 0, om, sm, ro, rip⟩ rfl).1 h1, 0, h2⟩
    · exact .inr ⟨fun h => h1 ((aux ⟨some .rfnop, true, true, 0, 0, om, sm, ro, rip⟩ rfl).2 h), h2⟩
  · rcases enter_eq ⟨some .sreset, true, false, 1, 0, om, sm, ro, rip⟩ d (by simp [checkPs]) with ⟨h1, h2⟩ | ⟨h1, h2⟩
    · exact .inl ⟨(aux ⟨some .sreset, true, false, 1, 0, om, sm, ro, rip⟩ rfl).1 h1, 1, h2⟩
    · exact .inr ⟨fun h => h1 ((aux ⟨some .sreset, true, false, 1, 0, om, sm, ro, rip⟩ rfl).2 h), h2⟩

theorem inv_entered (d : Dev) (ps : Pstat) (cm : BitVec 32) (hp : Provisioned ps d) (hw : WF ps) (hr : ps.rip = false)
    (hs : ps.s ≠ none) :
    Inv { d with ps := { ps with p := false, cm := cm, tm := 0, isop := decide (ps.s = some .rfnop) } } := by
  have ho := hp.owners
  simp only [List.mem_cons, List.not_mem_nil, or_false, forall_eq_or_imp, forall_eq] at ho
  exact ⟨hs, hr, by simp, fun _ => ⟨hp.owned, hp.devowner, hp.device⟩,
    fun _ => ⟨ho.1.1, ho.2.1.1, ho.2.2.1.1, ho.2.2.2.1⟩, ⟨hw.len, hw.om, hw.sm⟩⟩

/-! ## A request -/

/-- The outcome of a request on a device that satisfies the invariant: it is refused
and changes nothing; or it schedules a reset; or it enters RFOTM on an unowned device;
or it enters RFPRO, RFNOP or SRESET on a provisioned device along an admitted
transition; or it changes `tm`, `om` or the owner of the resource in the same state,
the latter not in RFPRO or RFNOP. -/
inductive Posted (e : Env) (d : Dev) : Bool → Dev → Prop
  | refused : Posted e d false d
  | reset : d.pending = false →
      Posted e d true { d with ps := ⟨some .reset, true, false, 1, 2, 3, 4, nilId, false⟩, pending := true }
  | rfotm (ps : Pstat) : d.doxm.owned = false → d.doxm.devowner = nilId →
      d.ps.s = some .reset ∨ d.ps.s = some .rfotm → ps.isop = false → ps.rip = false → WF ps →
      Posted e d true (rfotm e ps d).2
  | enter (ps : Pstat) (cm : BitVec 32) : ps.s = some .rfpro ∨ ps.s = some .rfnop ∨ ps.s = some .sreset →
      validTransition d.ps.s ps.s = true → Provisioned ps d → WF ps → ps.rip = false →
      Posted e d true { d with ps := { ps with p := false, cm := cm, tm := 0, isop := decide (ps.s = some .rfnop) } }
  | modes (tm : BitVec 32) (om : Int) (rowner : Id) : WF { d.ps with om := om, rowner := rowner } →
      (d.ps.s = some .rfpro ∨ d.ps.s = some .rfnop → rowner = d.ps.rowner) →
      Posted e d true { d with ps := { d.ps with tm := tm, om := om, rowner := rowner } }

theorem rfotm_from (d : Dev) (h : validTransition d.ps.s (some .rfotm) = true) (hv : d.ps.s ≠ none) :
    d.ps.s = some .reset ∨ d.ps.s = some .rfotm := by
  revert h hv
  cases d.ps.s with
  | none => simp
  | some s => cases s <;> simp [validTransition]

/-- Every request has one of these outcomes. -/
theorem post_spec (e : Env) (rep : Rep) (d d' : Dev) (ok : Bool) (hinv : Inv d)
    (hp : ∀ f, e.preset = some f → ∀ d, Inv d → Inv (f d)) (h : decode e false rep d = .ok (ok, d')) :
    Posted e d ok d' := by
  unfold decode at h
  cases hc : collect false rep ⟨d.ps, false⟩ with
  | ub => rw [hc] at h; cases h
  | ok x =>
    rw [hc, Out.bind] at h
    cases x with
    | none => simp only [Out.ok.injEq, Prod.mk.injEq] at h; obtain ⟨rfl, rfl⟩ := h; exact .refused
    | some x =>
      have hk := collect_kept rep _ x hc
      obtain ⟨ps, tr⟩ := x
      simp only [Out.ok.injEq] at h
      have hw : WF ps := hk.wf hinv.wf
      have hr : ps.rip = false := hk.rip.trans hinv.idle
      unfold applyPs at h
      dsimp only at h
      split at h
      · rename_i hv
        simp only [Bool.false_or] at hv
        cases tr with
        | true =>
          simp only [Bool.not_false, Bool.and_self, if_true] at h
          split at h
          · rename_i hs
            unfold resetV1 at h
            simp only [Bool.false_eq_true, if_false] at h
            unfold delayReset at h
            split at h
            · cases h; exact .refused
            · rename_i hb
              cases h
              exact .reset (by revert hb; cases d.pending <;> simp)
          · rename_i hs
            cases hps : ps.s with
            | none =>
              unfold handleState at h
              simp only [hps] at h
              cases h; exact .refused
            | some s =>
              cases s with
              | reset => exact absurd hps hs
              | rfotm =>
                have hfrom := rfotm_from d (by rw [← hps]; exact hv) hinv.valid
                have hi : ps.isop = false := by
                  have h1 := hk.isop
                  have h2 := hinv.isop
                  dsimp only at h1
                  rw [h1]
                  rcases hfrom with hf | hf <;> rw [hf] at h2 <;> simpa using h2
                have he : handleState e ps d = rfotm e ps d := by
                  unfold handleState; simp only [hps]
                rw [he] at h
                rcases rfotm_spec e ps d hi hr hw hp with ⟨a, b', c, -, -⟩ | ⟨-, h2⟩
                · have : (rfotm e ps d) = (true, (rfotm e ps d).2) := by rw [← c]
                  rw [this] at h
                  cases h
                  exact .rfotm ps a b' hfrom hi hr hw
                · rw [h2] at h
                  have : ({ d with ps := { d.ps with rip := false } } : Dev) = d := by
                    have := hinv.idle
                    obtain ⟨⟨s, p, i, cm, tm, om, sm, ro, rip⟩, x, y, z, w, v⟩ := d
                    cases this; rfl
                  rw [this] at h
                  cases h; exact .refused
              | rfpro =>
                rcases handleState_enter e ps d (.inl hps) with ⟨h1, cm, h2⟩ | ⟨-, h2⟩
                · rw [h2] at h; cases h; exact .enter ps cm (.inl hps) (by rw [hps] at hv ⊢; exact hv) h1 hw hr
                · rw [h2] at h; cases h; exact .refused
              | rfnop =>
                rcases handleState_enter e ps d (.inr (.inl hps)) with ⟨h1, cm, h2⟩ | ⟨-, h2⟩
                · rw [h2] at h; cases h; exact .enter ps cm (.inr (.inl hps)) (by rw [hps] at hv ⊢; exact hv) h1 hw hr
                · rw [h2] at h; cases h; exact .refused
              | sreset =>
                rcases handleState_enter e ps d (.inr (.inr hps)) with ⟨h1, cm, h2⟩ | ⟨-, h2⟩
                · rw [h2] at h; cases h; exact .enter ps cm (.inr (.inr hps)) (by rw [hps] at hv ⊢; exact hv) h1 hw hr
                · rw [h2] at h; cases h; exact .refused
        | false =>
          simp only [Bool.and_false, Bool.false_eq_true, if_false] at h
          obtain ⟨-, hs, hro⟩ := hk.trans rfl
          have he : ps = { d.ps with tm := ps.tm, om := ps.om, rowner := ps.rowner } := by
            have h1 := hk.isop; have h2 := hk.rip; have h3 := hk.p; have h4 := hk.cm; have h5 := hk.sm
            obtain ⟨s, p, i, cm, tm, om, sm, ro, rip⟩ := ps
            dsimp only at h1 h2 h3 h4 h5 hs
            rw [h1, h2, h3, h4, h5, hs]
          cases h
          have := Posted.modes (e := e) (d := d) ps.tm ps.om ps.rowner ⟨hw.len, hw.om, hinv.wf.sm⟩ hro
          rw [← he] at this
          exact this
      · cases h; exact .refused

theorem posted_inv (e : Env) (d d' : Dev) (ok : Bool) (hinv : Inv d)
    (hp : ∀ f, e.preset = some f → ∀ d, Inv d → Inv (f d)) (h : Posted e d ok d') : Inv d' := by
  cases h with
  | refused => exact hinv
  | reset h1 => exact ⟨by simp, rfl, by simp, by simp, by simp, fresh_wf _ _ _ _ _ _⟩
  | rfotm ps h1 h2 h3 h4 h5 h6 =>
    rcases rfotm_spec e ps d h4 h5 h6 hp with ⟨-, -, -, h, -⟩ | ⟨h, -⟩
    · exact h
    · rcases h with h | h
      · rw [h1] at h; cases h
      · exact absurd h2 h
  | enter ps cm h1 h2 h3 h4 h5 => exact inv_entered d ps cm h3 h4 h5 (by rcases h1 with h | h | h <;> rw [h] <;> simp)
  | modes tm om ro h1 h2 =>
    refine ⟨hinv.valid, hinv.idle, hinv.isop, hinv.owned, fun hs => ?_, ⟨h1.len, h1.om, h1.sm⟩⟩
    have := hinv.owners hs
    exact ⟨by dsimp only; rw [h2 hs]; exact this.1, this.2⟩

/-- A refused request changes nothing. -/
theorem refused (e : Env) (rep : Rep) (d d' : Dev) (hinv : Inv d)
    (hp : ∀ f, e.preset = some f → ∀ d, Inv d → Inv (f d)) (h : decode e false rep d = .ok (false, d')) : d' = d := by
  have := post_spec e rep d d' false hinv hp h
  cases this
  rfl

/-! ## The stored status -/

/-- A device that restarts has the status it stored, except that `p` is false. -/
theorem stored (e : Env) (base : Rep) (hb : ∀ p ∈ base, (p.1 = b "rt" ∨ p.1 = b "if") ∧ ∃ l, p.2 = .strs l)
    (d : Dev) (ps : Pstat) (hw : WF ps) (hs : ps.s ≠ none) :
    decode e true (encode base ps) d = .ok (true, { d with ps := { ps with p := d.ps.p, rip := d.ps.rip } }) := by
  have key : ∀ l x, collect true (base ++ l) x = collect true l x := by
    intro l x
    induction base with
    | nil => rfl
    | cons p r ih =>
      obtain ⟨k, v⟩ := p
      obtain ⟨hk, l', hl⟩ := hb _ List.mem_cons_self
      dsimp only at hk hl
      subst hl
      rw [List.cons_append]
      have : decodeProp true k (.strs l') x = .ok (some x) := by
        unfold decodeProp; dsimp only; rw [if_pos hk]
      rw [collect, this, Out.bind]
      exact ih fun p hp => hb p (List.mem_cons_of_mem _ hp)
  have hdos : ∀ s : Option Dos, s ≠ none → dosOfInt (dosInt s) = s := by
    intro s; cases s with
    | none => simp
    | some s => cases s <;> decide
  have hcm : ∀ c : BitVec 32, BitVec.ofInt 32 (c.toNat : Int) = c := by
    intro c; apply BitVec.eq_of_toNat_eq; rw [BitVec.ofInt_natCast, BitVec.toNat_ofNat]
    exact Nat.mod_eq_of_lt c.isLt
  have hcol : collect true (encode base ps) ⟨d.ps, false⟩ = .ok (some ⟨{ ps with p := d.ps.p, rip := d.ps.rip }, true⟩) := by
    rw [encode, key]
    have hu : ∀ old, Sec.strToUuid old (Sec.uuidText ps.rowner) = .ok ps.rowner := fun old => Sec.strToUuid_text _ _ hw.len
    obtain ⟨s, p, i, cm, tm, om, sm, ro, rip⟩ := ps
    have h1 : ∀ x : Dec, decodeProp true (b "dos") (.obj [(b "p", .bool p), (b "s", .int (dosInt s))]) x =
        .ok (some ⟨{ x.ps with s := s }, true⟩) := by
      intro x
      unfold decodeProp
      dsimp only
      rw [if_pos rfl]
      have : decodeDos true [(b "p", .bool p), (b "s", .int (dosInt s))] (x.ps.s, x.trans) = some (s, true) := by
        unfold decodeDos; dsimp only; rw [if_neg (by simp)]
        unfold decodeDos; dsimp only; rw [if_pos rfl, hdos s hs]
        rfl
      rw [this]; rfl
    have h2 : ∀ x : Dec, decodeProp true (b "cm") (.int cm.toNat) x = .ok (some { x with ps := { x.ps with cm := cm } }) := by
      intro x; unfold decodeProp decodeInt; dsimp only; rw [if_neg (by decide), if_pos (by decide), hcm]
    have h3 : ∀ x : Dec, decodeProp true (b "tm") (.int tm.toNat) x = .ok (some { x with ps := { x.ps with tm := tm } }) := by
      intro x; unfold decodeProp decodeInt; dsimp only
      rw [if_neg (by decide), if_neg (by decide), if_pos (by decide), hcm]
    have h4 : ∀ x : Dec, decodeProp true (b "om") (.int om) x = .ok (some { x with ps := { x.ps with om := om } }) := by
      intro x; unfold decodeProp decodeInt; dsimp only
      rw [if_neg (by decide), if_neg (by decide), if_neg (by decide), if_pos (by decide)]
      have := hw.om; dsimp only at this; rw [this]
    have h5 : ∀ x : Dec, decodeProp true (b "sm") (.int sm) x = .ok (some { x with ps := { x.ps with sm := sm } }) := by
      intro x; unfold decodeProp decodeInt; dsimp only
      rw [if_neg (by decide), if_neg (by decide), if_neg (by decide), if_neg (by decide), if_pos (by decide)]
      have := hw.sm; dsimp only at this; rw [this]
    have h6 : ∀ x : Dec, decodeProp true (b "isop") (.bool i) x = .ok (some { x with ps := { x.ps with isop := i } }) := by
      intro x; unfold decodeProp; dsimp only; rw [if_pos (by simp)]
    have h7 : ∀ x : Dec, decodeProp true (b "rowneruuid") (.str (Sec.uuidText ro)) x =
        .ok (some { x with ps := { x.ps with rowner := ro } }) := by
      intro x; unfold decodeProp; dsimp only; rw [if_pos (by simp), hu]; rfl
    simp only [collect, h1, h2, h3, h4, h5, h6, h7, Out.bind]
  rw [decode, hcol]
  rfl

/-! ## Histories -/

/-- One operation keeps the invariant. -/
theorem exec_inv (e : Env) (o : Op) (d d' : Dev) (hinv : Inv d) (ho : OpOk e o) (h : exec e o d = .ok d') : Inv d' := by
  have hdel : ∀ d, Inv d → Inv (delayReset d).2 := by
    intro d hd
    unfold delayReset
    split
    · exact hd
    · exact ⟨by simp, rfl, by simp, by simp, by simp, fresh_wf _ _ _ _ _ _⟩
  have hres : ∀ d : Dev, d.ps.rip = false → Inv (resetDevice e d).2 := fun d hd => (reset_spec e d ho.keypair hd ho.preset).2.1
  cases o with
  | post rep =>
    simp only [exec] at h
    cases hd : decode e false rep d with
    | ub => rw [hd] at h; cases h
    | ok x =>
      obtain ⟨ok, d''⟩ := x
      rw [hd, Out.bind] at h
      cases h
      exact posted_inv e d _ ok hinv ho.preset (post_spec e rep d _ ok hinv ho.preset hd)
  | reset force =>
    simp only [exec, Out.ok.injEq, resetV1] at h
    subst h
    cases force with
    | true => exact hres d hinv.idle
    | false => exact hdel d hinv
  | fire =>
    simp only [exec, Out.ok.injEq] at h
    subst h
    split
    · exact hres { d with pending := false } hinv.idle
    · exact hinv
  | shutdown =>
    simp only [exec, Out.ok.injEq] at h
    subst h
    split
    · exact hres d hinv.idle
    · exact hinv
  | doxm doc oxms rep =>
    simp only [exec] at h
    cases hd : Doxm.decode ⟨false, doc, d.ps.s.getD .reset, oxms⟩ rep d.doxm with
    | ub => rw [hd] at h; cases h
    | ok x =>
      obtain ⟨ok, x⟩ := x
      rw [hd, Out.bind] at h
      cases h
      have hg := Doxm.guarded ⟨false, doc, d.ps.s.getD .reset, oxms⟩ rfl (ho.oxms doc oxms rep rfl) rep d.doxm x ok hd
      dsimp only at hg
      refine ⟨hinv.valid, hinv.idle, hinv.isop, fun hs => ?_, fun hs => ?_, hinv.wf⟩
      · have hold := hinv.owned hs
        have hn : ¬ (d.ps.s.getD .reset = .rfotm) := by
          dsimp only at hs
          rcases hs with hs | hs | hs <;> rw [hs] <;> simp
        have hk : ¬ (x.owned ≠ d.doxm.owned ∨ x.devowner ≠ d.doxm.devowner ∨ x.device ≠ d.doxm.device) :=
          fun hc => hn (hg.2.1 hc).1
        refine ⟨?_, ?_, ?_⟩
        · exact (Classical.byContradiction fun hc => hk (.inl fun h => hc (h.trans hold.1)))
        · intro hc; exact hk (.inr (.inl fun h => hold.2.1 (h.symm.trans hc)))
        · intro hc; exact hk (.inr (.inr fun h => hold.2.2 (h.symm.trans hc)))
      · have hold := hinv.owners hs
        have hn : ¬ (d.ps.s.getD .reset = .rfotm ∨ d.ps.s.getD .reset = .sreset) := by
          dsimp only at hs
          rcases hs with hs | hs <;> rw [hs] <;> simp
        refine ⟨hold.1, fun hc => ?_, hold.2.2⟩
        exact hn (hg.2.2.1 fun h => hold.2.1 (h.symm.trans hc)).1
  | aclOwner id =>
    simp only [exec, Out.ok.injEq] at h
    subst h
    split
    · exact hinv
    · rename_i hn
      exact ⟨hinv.valid, hinv.idle, hinv.isop, hinv.owned, fun hs => absurd hs hn, hinv.wf⟩
  | credOwner id =>
    simp only [exec, Out.ok.injEq] at h
    subst h
    split
    · rename_i hn
      refine ⟨hinv.valid, hinv.idle, hinv.isop, hinv.owned, fun hs => ?_, hinv.wf⟩
      dsimp only at hs
      rcases hs with hs | hs <;> rw [hs] at hn <;> simp at hn
    · exact hinv
  | creds l =>
    simp only [exec, Out.ok.injEq] at h
    subst h
    exact ⟨hinv.valid, hinv.idle, hinv.isop, hinv.owned, hinv.owners, hinv.wf⟩
  | setCm cm =>
    simp only [exec, Out.ok.injEq] at h
    subst h
    exact ⟨hinv.valid, hinv.idle, hinv.isop, hinv.owned, hinv.owners, ⟨hinv.wf.len, hinv.wf.om, hinv.wf.sm⟩⟩
  | selfOwn id =>
    simp only [exec, Out.ok.injEq] at h
    subst h
    have hid := ho.id id rfl
    exact ⟨by simp [ownResources], hinv.idle, by simp [ownResources], fun _ => ⟨rfl, hid.1, hid.1⟩,
      fun _ => ⟨hid.1, hid.1, hid.1, hid.1⟩, ⟨hid.2, hinv.wf.om, hinv.wf.sm⟩⟩
  | selfDisown =>
    simp only [exec, Out.ok.injEq] at h
    subst h
    exact ⟨by simp [selfDisown], rfl, by simp [selfDisown], by simp [selfDisown], by simp [selfDisown], fresh_wf _ _ _ _ _ _⟩
  | restart base =>
    simp only [exec, restart] at h
    split at h
    · rw [stored e base (ho.base base rfl) _ d.ps hinv.wf hinv.valid, Out.bind] at h
      dsimp only at h
      cases h
      exact ⟨hinv.valid, rfl, hinv.isop, hinv.owned, hinv.owners, ⟨hinv.wf.len, hinv.wf.om, hinv.wf.sm⟩⟩
    · cases h
      exact hres { d with ps := zero, pending := false } rfl

/-- **C31**, the states: whatever requests, resets, updates of owners, credentials and
the ownership resource, and restarts a device goes through, it is in one of the five
states; it is operational exactly in RFNOP; in RFPRO, RFNOP and SRESET it is owned;
in RFPRO and RFNOP its owners are set. -/
theorem owned_history (l : List (Env × Op)) (d d' : Dev) (hinv : Inv d) (ho : ∀ x ∈ l, OpOk x.1 x.2)
    (h : run l d = .ok d') : Inv d' := by
  induction l generalizing d with
  | nil => cases h; exact hinv
  | cons x l ih =>
    simp only [run] at h
    cases hx : exec x.1 x.2 d with
    | ub => rw [hx] at h; cases h
    | ok d1 =>
      rw [hx, Out.bind] at h
      exact ih d1 (exec_inv x.1 x.2 d d1 hinv (ho x List.mem_cons_self) hx) (fun y hy => ho y (List.mem_cons_of_mem _ hy)) h

/-! ## Transitions -/

/-- The transitions of the OCF security specification between the states. -/
inductive Edge : Dos → Dos → Prop
  | reset_rfotm : Edge .reset .rfotm
  | rfotm_rfpro : Edge .rfotm .rfpro
  | rfpro_rfnop : Edge .rfpro .rfnop
  | rfnop_rfpro : Edge .rfnop .rfpro
  | rfpro_sreset : Edge .rfpro .sreset
  | rfnop_sreset : Edge .rfnop .sreset
  | sreset_rfpro : Edge .sreset .rfpro
  | to_reset (s : Dos) : Edge s .reset

/-- **C31**, the transitions. A request moves the state along an edge of the state
machine or leaves it. Full statement: always. Missing: the code also admits RFOTM to
RFNOP, and anything out of RESET (`rfotm_to_rfnop_false`, `reset_escape_false`). -/
theorem transitions_partial (e : Env) (rep : Rep) (d d' : Dev) (ok : Bool) (hinv : Inv d) (hn : e.preset = none)
    (h : decode e false rep d = .ok (ok, d')) :
    d'.ps.s = d.ps.s ∨
    (∃ s s', d.ps.s = some s ∧ d'.ps.s = some s' ∧ Edge s s') ∨
    (d.ps.s = some .rfotm ∧ d'.ps.s = some .rfnop ∧ Provisioned d'.ps d') ∨
    (d.ps.s = some .reset ∧ Provisioned d'.ps d') := by
  have hp : ∀ f, e.preset = some f → ∀ d, Inv d → Inv (f d) := by rw [hn]; intro f h; cases h
  have hpost := post_spec e rep d d' ok hinv hp h
  cases hpost with
  | refused => exact .inl rfl
  | reset h1 =>
    right; left
    have := hinv.valid
    cases hs : d.ps.s with
    | none => exact absurd hs this
    | some s => exact ⟨s, .reset, rfl, rfl, .to_reset s⟩
  | rfotm ps h1 h2 h3 h4 h5 h6 =>
    rcases rfotm_spec e ps d h4 h5 h6 hp with ⟨-, -, -, -, h⟩ | ⟨h, -⟩
    · rw [h hn]
      rcases h3 with h3 | h3
      · exact .inr (.inl ⟨.reset, .rfotm, h3, rfl, .reset_rfotm⟩)
      · exact .inl h3.symm
    · rcases h with h | h
      · rw [h1] at h; cases h
      · exact absurd h2 h
  | modes tm om ro h1 h2 => exact .inl rfl
  | enter ps cm h1 h2 h3 h4 h5 =>
    have hprov : ∀ ps' : Pstat, ps'.rowner = ps.rowner → Provisioned ps' { d with ps := ps' } := by
      intro ps' hr
      exact ⟨h3.owned, h3.devowner, h3.device, by rw [hr]; exact h3.owners⟩
    have hv := hinv.valid
    dsimp only
    cases hs : d.ps.s with
    | none => exact absurd hs hv
    | some s =>
      rw [hs] at h2
      cases s with
      | reset => exact .inr (.inr (.inr ⟨rfl, hprov { ps with p := false, cm := cm, tm := 0, isop := decide (ps.s = some .rfnop) } rfl⟩))
      | rfotm =>
        rcases h1 with h1 | h1 | h1 <;> rw [h1] at h2
        · exact .inr (.inl ⟨_, _, rfl, h1, .rfotm_rfpro⟩)
        · exact .inr (.inr (.inl ⟨rfl, h1, hprov { ps with p := false, cm := cm, tm := 0, isop := decide (ps.s = some .rfnop) } rfl⟩))
        · simp [validTransition] at h2
      | rfpro =>
        rcases h1 with h1 | h1 | h1
        · exact .inl h1
        · exact .inr (.inl ⟨_, _, rfl, h1, .rfpro_rfnop⟩)
        · exact .inr (.inl ⟨_, _, rfl, h1, .rfpro_sreset⟩)
      | rfnop =>
        rcases h1 with h1 | h1 | h1
        · exact .inr (.inl ⟨_, _, rfl, h1, .rfnop_rfpro⟩)
        · exact .inl h1
        · exact .inr (.inl ⟨_, _, rfl, h1, .rfnop_sreset⟩)
      | sreset =>
        rcases h1 with h1 | h1 | h1 <;> rw [h1] at h2
        · exact .inr (.inl ⟨_, _, rfl, h1, .sreset_rfpro⟩)
        · simp [validTransition] at h2
        · exact .inl h1

/-- **C31**: a request that moves a device into RFPRO, RFNOP or SRESET finds it
provisioned: owned, and with a credential for the owner of each security resource. -/
theorem entered (e : Env) (rep : Rep) (d d' : Dev) (ok : Bool) (hinv : Inv d) (hn : e.preset = none)
    (h : decode e false rep d = .ok (ok, d')) (hne : d'.ps.s ≠ d.ps.s)
    (hs : d'.ps.s = some .rfpro ∨ d'.ps.s = some .rfnop ∨ d'.ps.s = some .sreset) : Provisioned d'.ps d' := by
  have hp : ∀ f, e.preset = some f → ∀ d, Inv d → Inv (f d) := by rw [hn]; intro f h; cases h
  have hpost := post_spec e rep d d' ok hinv hp h
  cases hpost with
  | refused => exact absurd rfl hne
  | reset h1 => simp at hs
  | rfotm ps h1 h2 h3 h4 h5 h6 =>
    rcases rfotm_spec e ps d h4 h5 h6 hp with ⟨-, -, -, -, h⟩ | ⟨h, -⟩
    · rw [h hn] at hs; simp at hs
    · rcases h with h | h
      · rw [h1] at h; cases h
      · exact absurd h2 h
  | modes tm om ro h1 h2 => exact absurd rfl hne
  | enter ps cm h1 h2 h3 h4 h5 => exact ⟨h3.owned, h3.devowner, h3.device, h3.owners⟩

/-! ## A reset completes -/

/-- The operations that may not happen while a scheduled reset waits for it to be
forgotten: a restart and another reset that happens at once. -/
def Waits : Op → Prop
  | .fire | .shutdown | .restart _ | .reset true => False
  | _ => True

/-- **C31**: a scheduled reset stays scheduled, whatever requests arrive. -/
theorem reset_stays (e : Env) (o : Op) (d d' : Dev) (hinv : Inv d) (hn : e.preset = none) (hw : Waits o)
    (hd : d.pending = true) (h : exec e o d = .ok d') : d'.pending = true := by
  have hp : ∀ f, e.preset = some f → ∀ d, Inv d → Inv (f d) := by rw [hn]; intro f h; cases h
  cases o with
  | post rep =>
    simp only [exec] at h
    cases hx : decode e false rep d with
    | ub => rw [hx] at h; cases h
    | ok x =>
      obtain ⟨ok, d''⟩ := x
      rw [hx, Out.bind] at h
      cases h
      have hpost := post_spec e rep d _ ok hinv hp hx
      show d''.pending = true
      cases hpost with
      | refused => exact hd
      | reset h1 => rfl
      | rfotm ps h1 h2 h3 h4 h5 h6 =>
        rcases rfotm_spec e ps d h4 h5 h6 hp with ⟨-, -, -, -, h⟩ | ⟨h, -⟩
        · rw [h hn]; exact hd
        · rcases h with h | h
          · rw [h1] at h; cases h
          · exact absurd h2 h
      | modes tm om ro h1 h2 => exact hd
      | enter ps cm h1 h2 h3 h4 h5 => exact hd
  | reset force =>
    cases force with
    | true => exact absurd hw id
    | false =>
      simp only [exec, Out.ok.injEq, resetV1, delayReset, hd] at h
      subst h
      simp [hd]
  | fire => exact absurd hw id
  | shutdown => exact absurd hw id
  | restart b => exact absurd hw id
  | doxm doc oxms rep =>
    simp only [exec] at h
    cases hx : Doxm.decode ⟨false, doc, d.ps.s.getD .reset, oxms⟩ rep d.doxm with
    | ub => rw [hx] at h; cases h
    | ok x => rw [hx, Out.bind] at h; cases h; exact hd
  | aclOwner id =>
    simp only [exec, Out.ok.injEq] at h
    subst h
    split <;> exact hd
  | credOwner id =>
    simp only [exec, Out.ok.injEq] at h
    subst h
    split <;> exact hd
  | creds l => simp only [exec, Out.ok.injEq] at h; subst h; exact hd
  | setCm cm => simp only [exec, Out.ok.injEq] at h; subst h; exact hd
  | selfOwn id => simp only [exec, Out.ok.injEq] at h; subst h; exact hd
  | selfDisown => simp only [exec, Out.ok.injEq] at h; subst h; exact hd

/-- **C31**: when the timer of a scheduled reset fires, the device is in RFOTM, not
owned, without credentials and without owners, whatever its state was. -/
theorem reset_completes (e : Env) (d : Dev) (hk : e.keypair = true) (hn : e.preset = none) (hd : d.pending = true)
    (hr : d.ps.rip = false) :
    exec e .fire d = .ok ⟨⟨some .rfotm, false, false, 2, 0, 3, 4, nilId, false⟩, Doxm.setDefault e.sct e.fresh, nilId, nilId, [], false⟩ := by
  have := (reset_spec e { d with pending := false } hk hr (by rw [hn]; intro f h; cases h)).2.2 hn
  simp only [exec, hd, if_true, resetV1, this]

/-- **C31**: a request for RESET is accepted once, takes the device out of operation
and schedules the reset. -/
theorem reset_requested (e : Env) (d : Dev) (hinv : Inv d) (hd : d.pending = false) :
    decode e false [(b "dos", .obj [(b "s", .int 0)])] d =
      .ok (true, { d with ps := ⟨some .reset, true, false, 1, 2, 3, 4, nilId, false⟩, pending := true }) := by
  have h0 : dosOfInt 0 = some .reset := by decide
  have hc : collect false [(b "dos", .obj [(b "s", .int 0)])] ⟨d.ps, false⟩ =
      .ok (some ⟨{ d.ps with s := some .reset }, true⟩) := by
    simp [collect, decodeProp, decodeDos, h0, Out.bind]
  rw [decode, hc, Out.bind]
  have hv : validTransition d.ps.s (some .reset) = true := by
    cases d.ps.s with
    | none => rfl
    | some s => cases s <;> rfl
  simp [applyPs, hv, resetV1, delayReset, hinv.idle, hd]

/-! ## Non-vacuity and boundary cases -/

/-- A device that is owned, with one owner of all resources. -/
def exId : Id := List.replicate 16 7
def exDev (s : Dos) : Dev :=
  ⟨⟨some s, false, s == .rfnop, if s = .sreset then 1 else if s = .rfotm then 2 else 0, 0, 3, 4, exId, false⟩,
   ⟨4, 9, true, exId, List.replicate 16 1, exId⟩, exId, exId, [exId], false⟩
def exEnv : Env := ⟨9, List.replicate 16 2, true, none⟩

theorem exDev_inv (s : Dos) : Inv (exDev s) := by
  have hw : WF (exDev s).ps :=
    ⟨show exId.length = 16 by decide, show Sec.toInt32 3 = 3 by decide, show Sec.toInt32 4 = 4 by decide⟩
  have hne : exId ≠ nilId := by decide
  have hne' : List.replicate 16 (1 : UInt8) ≠ nilId := by decide
  exact ⟨by simp [exDev], rfl, by simp [exDev], fun _ => ⟨rfl, hne, hne'⟩, fun _ => ⟨hne, hne, hne, hne⟩, hw⟩

/-- The hypotheses of `owned_history` hold of a device that is provisioned, operates,
is reset and restarted; the history runs. -/
example : Inv (exDev .rfotm) ∧ OpOk exEnv (.post [(b "dos", .obj [(b "s", .int 2)])]) ∧ OpOk exEnv (.restart [(b "rt", .strs [])]) ∧
    (∃ d, run [(exEnv, .post [(b "dos", .obj [(b "s", .int 2)])]), (exEnv, .restart [(b "rt", .strs [])]),
      (exEnv, .post [(b "dos", .obj [(b "s", .int 3)])])] (exDev .rfotm) = .ok d ∧ d.ps.s = some .rfnop ∧ d.ps.isop = true) := by
  refine ⟨exDev_inv _, ⟨rfl, fun f h => (by cases h), fun i h => (by cases h), fun _ _ _ h => (by cases h), fun _ h => (by cases h)⟩,
    ⟨rfl, fun f h => (by cases h), fun i h => (by cases h), fun _ _ _ h => (by cases h), fun r h => ?_⟩, ?_⟩
  · cases h
    intro p hp
    simp only [List.mem_singleton] at hp
    subst hp
    exact ⟨.inl rfl, _, rfl⟩
  · exact ⟨{ exDev .rfnop with ps := ⟨some .rfnop, false, true, 0, 0, 3, 4, exId, false⟩ }, by decide +kernel, rfl, rfl⟩

/-- `refused`: a request for normal operation without a credential of the owner. -/
example : decode exEnv false [(b "dos", .obj [(b "s", .int 3)])] { exDev .rfpro with creds := [] } =
    .ok (false, { exDev .rfpro with creds := [] }) := by decide +kernel

/-- `transitions_partial` and `entered`: soft reset. -/
example : decode exEnv false [(b "dos", .obj [(b "s", .int 4)])] (exDev .rfnop) =
    .ok (true, exDev .sreset) := by decide +kernel

/-- `reset_completes`: the reset of an operating device. -/
example : run [(exEnv, .post [(b "dos", .obj [(b "s", .int 0)])]), (exEnv, .creds []), (exEnv, .fire)] (exDev .rfnop) =
    .ok ⟨⟨some .rfotm, false, false, 2, 0, 3, 4, nilId, false⟩, Doxm.setDefault 9 (List.replicate 16 2), nilId, nilId, [], false⟩ := by
  decide +kernel

/-- A device moves from RFOTM to RFNOP without passing RFPRO. -/
theorem rfotm_to_rfnop_false : ∃ d', decode exEnv false [(b "dos", .obj [(b "s", .int 3)])] (exDev .rfotm) = .ok (true, d') ∧
    d'.ps.s = some .rfnop ∧ ¬ Edge .rfotm .rfnop :=
  ⟨exDev .rfnop, by decide +kernel, rfl, fun h => by cases h⟩

/-- While a reset is scheduled, a request takes the device from RESET back to normal
operation. -/
theorem reset_escape_false : ∃ d1 d2, decode exEnv false [(b "dos", .obj [(b "s", .int 0)])] (exDev .rfnop) = .ok (true, d1) ∧
    d1.ps.s = some .reset ∧
    decode exEnv false [(b "rowneruuid", .str (Sec.uuidText exId)), (b "dos", .obj [(b "s", .int 3)])] d1 = .ok (true, d2) ∧
    d2.ps.s = some .rfnop ∧ ¬ Edge .reset .rfnop := by
  refine ⟨{ exDev .rfnop with ps := ⟨some .reset, true, false, 1, 2, 3, 4, nilId, false⟩, pending := true },
    { exDev .rfnop with pending := true }, by decide +kernel, rfl, by decide +kernel, rfl, fun h => by cases h⟩

/-- The owner of the resource changes in normal operation, although it must not: the
guard looks at the state that the payload names, and a later `dos` names another. -/
theorem rowner_rfnop_false (u : Id) (hu : u.length = 16) (hn : u ≠ nilId) : ∃ d',
    decode exEnv false [(b "dos", .obj [(b "s", .int 4)]), (b "rowneruuid", .str (Sec.uuidText u)), (b "dos", .obj [(b "s", .int 3)])]
      { exDev .rfnop with creds := [exId, u] } = .ok (true, d') ∧ d'.ps.s = some .rfnop ∧ d'.ps.rowner = u := by
  have h4 : dosOfInt 4 = some .sreset := by decide
  have h3 : dosOfInt 3 = some .rfnop := by decide
  have hc : ∀ ps : Pstat, collect false [(b "dos", .obj [(b "s", .int 4)]), (b "rowneruuid", .str (Sec.uuidText u)), (b "dos", .obj [(b "s", .int 3)])]
      ⟨ps, false⟩ = .ok (some ⟨{ ps with s := some .rfnop, rowner := u }, true⟩) := by
    intro ps
    simp [collect, decodeProp, decodeDos, h4, h3, Out.bind, Sec.strToUuid_text _ _ hu]
  have hne : exId ≠ nilId := by decide
  refine ⟨{ exDev .rfnop with creds := [exId, u], ps := { (exDev .rfnop).ps with rowner := u } }, ?_, rfl, rfl⟩
  rw [decode, hc, Out.bind]
  simp [applyPs, validTransition, handleState, enter, checkState, checkPs, ownerOk, exDev, hn, hne]
  decide

/-- A reset that is interrupted by a restart never happens: the device stays in RESET,
owned, with its credentials and no reset scheduled. -/
theorem interrupted_reset_false :
    run [(exEnv, .post [(b "dos", .obj [(b "s", .int 0)])]), (exEnv, .restart []), (exEnv, .fire)] (exDev .rfnop) =
    .ok { exDev .rfnop with ps := ⟨some .reset, false, false, 1, 2, 3, 4, nilId, false⟩ } := by decide +kernel

/-- If generating the key pair fails, a reset leaves the device operational in RFNOP
but without owner and credentials: the hypothesis of `owned_history` is needed. -/
theorem failed_reset_false : exec { exEnv with keypair := false } (.reset true) (exDev .rfnop) =
    .ok { exDev .rfnop with doxm := Doxm.setDefault 9 (List.replicate 16 2), creds := [], credOwner := nilId, aclOwner := nilId } := by
  decide +kernel

/-- A property with an empty name and an integer value makes the decoding read past
the name. -/
theorem empty_name_ub : decode exEnv false [([], .int 0)] (exDev .rfnop) = .ub := by decide +kernel

/-- Only the first two bytes of the names of the modes are compared. -/
theorem prefix_name_false : decode exEnv false [(b "tmfoo", .int 4)] (exDev .rfnop) =
    .ok (true, { exDev .rfnop with ps := { (exDev .rfnop).ps with tm := 4 } }) := by decide +kernel

/-- The state is truncated to 32 bits: 2^32 requests a reset. -/
theorem state_truncated_false : decode exEnv false [(b "dos", .obj [(b "s", .int 4294967296)])] (exDev .rfnop) =
    .ok (true, { exDev .rfnop with ps := ⟨some .reset, true, false, 1, 2, 3, 4, nilId, false⟩, pending := true }) := by
  decide +kernel

end Verif.Pstat
