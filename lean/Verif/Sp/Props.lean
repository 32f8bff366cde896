import Verif.Sp.Model

/-!
The security profile: which updates are accepted and what they do.
-/

namespace Verif.Sp

open Verif.Rep (Bytes b Val Rep)

/-- Specification: the last string property of that name. -/
def Spec.lastStr (k : Bytes) (rep : Rep) : Option Bytes :=
  (rep.reverse.findSome? fun p => match p.2 with | .str s => if p.1 = k then some s else none | _ => none)

/-- Specification: the last string array property of that name. -/
def Spec.lastStrs (k : Bytes) (rep : Rep) : Option (List Bytes) :=
  (rep.reverse.findSome? fun p => match p.2 with | .strs s => if p.1 = k then some s else none | _ => none)

/-- Specification: a known property of the resource. -/
def Spec.Known (p : Bytes × Val) : Prop :=
  (p.1 = b "currentprofile" ∧ ∃ s, p.2 = .str s) ∨ (p.1 = b "supportedprofiles" ∧ ∃ l, p.2 = .strs l)

/-- Specification: the current profile is one of the four and supported. -/
def Spec.Good (d : Sp) : Prop := (∃ p ∈ oids, d.current = p.2) ∧ d.current &&& d.supported ≠ 0

theorem ofString_mem (s : Bytes) : ofString s = 0 ∨ ∃ p ∈ oids, ofString s = p.2 ∧ p.1 = s := by
  unfold ofString
  cases h : oids.find? fun p => p.1 == s with
  | none => exact .inl rfl
  | some p =>
    have h1 := List.mem_of_find?_eq_some h
    have h2 := List.find?_some h
    exact .inr ⟨p, h1, rfl, by simpa using h2⟩

/-- The four names and only they denote profiles, each its own. -/
theorem ofString_oid (p : Bytes × BitVec 32) (h : p ∈ oids) : ofString p.1 = p.2 ∧ p.2 ≠ 0 ∧ toString p.2 = some p.1 := by
  revert p; decide +kernel

theorem collect_strict (rep : Rep) (cur : Option Bytes) (sup : Option (List Bytes)) (x)
    (h : collect false rep cur sup = some x) :
    (∀ p ∈ rep, Spec.Known p) ∧ x.1 = (Spec.lastStr (b "currentprofile") rep).or cur ∧
      x.2 = (Spec.lastStrs (b "supportedprofiles") rep).or sup := by
  induction rep generalizing cur sup with
  | nil =>
    simp only [collect, Option.some.injEq] at h
    subst h
    simp [Spec.lastStr, Spec.lastStrs]
  | cons p r ih =>
    obtain ⟨k, v⟩ := p
    unfold collect at h
    split at h
    · rename_i s
      split at h
      · rename_i hk
        obtain ⟨h1, h2, h3⟩ := ih _ _ h
        refine ⟨?_, ?_, ?_⟩
        · intro q hq
          rcases List.mem_cons.1 hq with rfl | hq
          · exact .inl ⟨hk, s, rfl⟩
          · exact h1 q hq
        · rw [h2]; simp [Spec.lastStr, List.findSome?_append, hk]
        · rw [h3]; simp [Spec.lastStrs, List.findSome?_append]
      · simp at h
    · rename_i s
      split at h
      · rename_i hk
        obtain ⟨h1, h2, h3⟩ := ih _ _ h
        refine ⟨?_, ?_, ?_⟩
        · intro q hq
          rcases List.mem_cons.1 hq with rfl | hq
          · exact .inr ⟨hk, s, rfl⟩
          · exact h1 q hq
        · rw [h2]; simp [Spec.lastStr, List.findSome?_append]
        · rw [h3]; simp [Spec.lastStrs, List.findSome?_append, hk]
      · simp at h
    · simp at h

theorem collect_known (rep : Rep) (cur : Option Bytes) (sup : Option (List Bytes)) (hk : ∀ p ∈ rep, Spec.Known p) :
    ∃ x, collect false rep cur sup = some x := by
  induction rep generalizing cur sup with
  | nil => exact ⟨_, rfl⟩
  | cons p r ih =>
    have hr := fun cur sup => ih cur sup (fun q hq => hk q (List.mem_cons_of_mem _ hq))
    obtain ⟨k, v⟩ := p
    rcases hk _ (List.mem_cons_self ..) with ⟨h, s, hs⟩ | ⟨h, s, hs⟩
    · dsimp only at h hs; subst h hs
      obtain ⟨x, hx⟩ := hr (some s) sup
      exact ⟨x, by rw [collect]; simpa using hx⟩
    · dsimp only at h hs; subst h hs
      obtain ⟨x, hx⟩ := hr cur (some s)
      exact ⟨x, by rw [collect]; simpa using hx⟩

theorem or_zero (a c : BitVec 32) (h : a ||| c = 0) : a = 0 ∧ c = 0 := by
  constructor
  · ext i hi
    have := congrArg (fun z => z[i]) h
    simp at this
    simpa using this.1
  · ext i hi
    have := congrArg (fun z => z[i]) h
    simp at this
    simpa using this.2

theorem mask_bits (l : List Bytes) (m r : BitVec 32) (h : mask l m = some r) (p) (hp : p ∈ oids) :
    (r &&& p.2 ≠ 0 ↔ m &&& p.2 ≠ 0 ∨ ∃ s ∈ l, s.takeWhile (· != 0) = p.1) := by
  induction l generalizing m with
  | nil =>
    simp only [mask, Option.some.injEq] at h
    subst h; simp
  | cons s l ih =>
    rw [mask] at h
    split at h
    · cases h
    · rename_i h0
      rw [ih _ h]
      obtain h1 | ⟨q, hq, h2, h3⟩ := ofString_mem (s.takeWhile (· != 0))
      · exact absurd h1 h0
      have e : ((m ||| q.2) &&& p.2 ≠ 0) ↔ (m &&& p.2 ≠ 0 ∨ q.1 = p.1) := by
        have hd : (m ||| q.2) &&& p.2 = (m &&& p.2) ||| (q.2 &&& p.2) := by
          ext i hi; simp [Bool.and_or_distrib_right]
        rw [hd]
        have hqp : q.2 &&& p.2 ≠ 0 ↔ q.1 = p.1 := by
          clear h3 h2 h h0 ih hd
          revert q p; decide +kernel
        constructor
        · intro hne
          by_cases hm : m &&& p.2 = 0
          · right; rw [hm] at hne; apply hqp.1; simpa using hne
          · exact .inl hm
        · rintro (hm | hq') hz
          · exact hm (or_zero _ _ hz).1
          · exact hqp.2 hq' (or_zero _ _ hz).2
      rw [h2, e, h3]
      constructor
      · rintro ((h | h) | ⟨s', hs', he⟩)
        · exact .inl h
        · exact .inr ⟨s, by simp, h⟩
        · exact .inr ⟨s', by simp [hs'], he⟩
      · rintro (h | ⟨s', hs', he⟩)
        · exact .inl (.inl h)
        · rcases List.mem_cons.1 hs' with rfl | hs'
          · exact .inl (.inr (h3 ▸ he))
          · exact .inr ⟨s', hs', he⟩

/-- What an accepted update did: it consists of known properties, the supported
profiles are exactly those listed last (unchanged if none is listed), the current
profile is the one named last, which is supported (unchanged if none is named),
and the credential is unchanged. -/
theorem accepted (rep : Rep) (d d' : Sp) (h : decode false rep d = (true, d')) :
    (∀ p ∈ rep, Spec.Known p) ∧
    (Spec.lastStrs (b "supportedprofiles") rep = none → d'.supported = d.supported) ∧
    (∀ l, Spec.lastStrs (b "supportedprofiles") rep = some l →
      ∀ p ∈ oids, d'.supported &&& p.2 ≠ 0 ↔ ∃ s ∈ l, s.takeWhile (· != 0) = p.1) ∧
    (Spec.lastStr (b "currentprofile") rep = none → d'.current = d.current) ∧
    (∀ s, Spec.lastStr (b "currentprofile") rep = some s →
      (s, d'.current) ∈ oids ∧ d'.current &&& d'.supported ≠ 0) ∧
    d'.credid = d.credid := by
  unfold decode at h
  split at h
  · cases h
  rename_i cur sup hc
  obtain ⟨h1, h2, h3⟩ := collect_strict _ _ _ _ hc
  simp only [Option.or_none] at h2 h3
  split at h
  · cases h
  rename_i d1 hs
  have hsup : (sup = none → d1 = d) ∧ (∀ l, sup = some l → ∃ m, mask l 0 = some m ∧ d1 = { d with supported := m }) := by
    constructor
    · rintro rfl; simpa [setSupported] using hs.symm
    · rintro l rfl
      simp only [setSupported, Option.map_eq_some_iff] at hs
      obtain ⟨m, hm, he⟩ := hs
      exact ⟨m, hm, he.symm⟩
  have hcred : d1.credid = d.credid ∧ d1.current = d.current := by
    cases hq : sup with
    | none => rw [hsup.1 hq]; simp
    | some l => obtain ⟨m, -, he⟩ := hsup.2 l hq; rw [he]; simp
  have hcur : d'.supported = d1.supported ∧ d'.credid = d1.credid ∧ (cur = none → d'.current = d1.current) ∧
      ∀ s, cur = some s → ((s, d'.current) ∈ oids ∧ d'.current &&& d'.supported ≠ 0) := by
    unfold setCurrent at h
    split at h
    · simp only [Prod.mk.injEq, true_and] at h
      subst h
      exact ⟨rfl, rfl, fun _ => rfl, fun _ hh => by cases hh⟩
    · dsimp only at h
      rename_i s
      split at h
      · cases h
      · split at h
        · cases h
        · rename_i h0 hne
          simp only [Prod.mk.injEq, true_and] at h
          subst h
          refine ⟨rfl, rfl, fun hh => (by cases hh), ?_⟩
          rintro s' ⟨⟩
          refine ⟨?_, hne⟩
          obtain hz | ⟨p, hp, hv, hn⟩ := ofString_mem s
          · exact absurd hz h0
          · show (s, ofString s) ∈ oids
            rw [hv, ← hn]; exact hp
  rw [← h2, ← h3]
  refine ⟨h1, ?_, ?_, ?_, hcur.2.2.2, hcur.2.1.trans hcred.1⟩
  · intro hn; rw [hcur.1, hsup.1 hn]
  · intro l hl p hp
    obtain ⟨m, hm, he⟩ := hsup.2 l hl
    rw [hcur.1, he]
    have := mask_bits l 0 m hm p hp
    simpa using this
  · intro hn; rw [hcur.2.2.1 hn, hcred.2]

example : decode false [(b "supportedprofiles", .strs [b "1.3.6.1.4.1.51414.0.0.2.0", b "1.3.6.1.4.1.51414.0.0.4.0"]),
    (b "currentprofile", .str (b "1.3.6.1.4.1.51414.0.0.4.0"))] ⟨2, 2, 7⟩ = (true, ⟨20, 16, 7⟩) := by decide +kernel

/-- Part of the property: the current profile is a supported one after every update
that is accepted and names a current profile, or leaves the supported ones as they
are. Missing: updates of the supported profiles only (`unsupported_current_false`). -/
theorem current_supported_partial (rep : Rep) (d d' : Sp) (h : decode false rep d = (true, d'))
    (hd : Spec.Good d)
    (hp : Spec.lastStr (b "currentprofile") rep ≠ none ∨ Spec.lastStrs (b "supportedprofiles") rep = none) : Spec.Good d' := by
  obtain ⟨-, h2, -, h4, h5, -⟩ := accepted rep d d' h
  cases hc : Spec.lastStr (b "currentprofile") rep with
  | some s => obtain ⟨h1, hne⟩ := h5 s hc; exact ⟨⟨_, h1, rfl⟩, hne⟩
  | none =>
    rw [hc] at hp
    have hs := hp.resolve_left (fun hh => hh rfl)
    rw [Spec.Good, h4 hc, h2 hs]
    exact hd

/-- Histories: if no update lists supported profiles, the current one stays a
supported one. -/
theorem current_supported_history_partial (l : List (Acl.Dos × Rep)) (d : Sp) (hd : Spec.Good d)
    (hl : ∀ x ∈ l, Spec.lastStrs (b "supportedprofiles") x.2 = none) :
    Spec.Good (l.foldl (fun d x => (decodeFor x.1 x.2 d).2) d) := by
  induction l generalizing d with
  | nil => exact hd
  | cons x l ih =>
    rw [List.foldl_cons]
    apply ih _ _ (fun y hy => hl y (List.mem_cons_of_mem _ hy))
    have hx := hl x (by simp)
    unfold decodeFor
    split
    · exact hd
    · cases hr : decode false x.2 d with
      | mk ok d' =>
        cases ok with
        | true => exact current_supported_partial _ _ _ hr hd (.inr hx)
        | false =>
          have : d' = d := by
            unfold decode at hr
            split at hr
            · simp at hr; exact hr.symm
            · rename_i cur sup hc
              obtain ⟨-, -, h3⟩ := collect_strict _ _ _ _ hc
              rw [hx] at h3
              simp only [Option.or_none] at h3
              subst h3
              simp only [setSupported] at hr
              unfold setCurrent at hr
              split at hr
              · simp at hr
              · dsimp only at hr
                split at hr
                · simp at hr; exact hr.symm
                · split at hr <;> simp at hr
                  exact hr.symm
          subst this
          exact hd

example : Spec.Good ⟨2, 2, -1⟩ := ⟨⟨(b "1.3.6.1.4.1.51414.0.0.1.0", 2), by decide +kernel, rfl⟩, by decide⟩

/-- Updates that select a supported profile are accepted outside RFNOP. -/
theorem selects (dos : Acl.Dos) (hn : dos ≠ .rfnop) (rep : Rep) (d : Sp) (hk : ∀ p ∈ rep, Spec.Known p)
    (hs : Spec.lastStrs (b "supportedprofiles") rep = none) (p) (hp : p ∈ oids)
    (hc : Spec.lastStr (b "currentprofile") rep = some p.1) (hd : d.supported &&& p.2 ≠ 0) :
    decodeFor dos rep d = (true, { d with current := p.2 }) := by
  obtain ⟨⟨cur, sup⟩, hx⟩ := collect_known rep none none hk
  obtain ⟨-, h2, h3⟩ := collect_strict _ _ _ _ hx
  simp only [Option.or_none, hc, hs] at h2 h3
  subst h2 h3
  obtain ⟨e1, e2, -⟩ := ofString_oid p hp
  rw [decodeFor, if_neg hn, decode, hx]
  dsimp only
  rw [setSupported]
  dsimp only
  rw [setCurrent]
  rw [e1, if_neg e2, if_neg (by rwa [BitVec.and_comm])]

example : decodeFor .rfpro [(b "currentprofile", .str (b "1.3.6.1.4.1.51414.0.0.4.0"))] ⟨20, 4, 7⟩ = (true, ⟨20, 16, 7⟩) := by
  decide +kernel

/-- In RFNOP nothing changes; a refused update without supported profiles, or with
an unknown property or profile name among them, changes nothing. Missing: a refused current profile after
accepted supported profiles (`refused_changes_false`). -/
theorem refused_unchanged_partial (dos : Acl.Dos) (rep : Rep) (d d' : Sp) (h : decodeFor dos rep d = (false, d'))
    (hp : dos = .rfnop ∨ Spec.lastStrs (b "supportedprofiles") rep = none ∨ (∃ p ∈ rep, ¬ Spec.Known p) ∨
      ∃ l, Spec.lastStrs (b "supportedprofiles") rep = some l ∧ ∃ s ∈ l, ofString (s.takeWhile (· != 0)) = 0) : d' = d := by
  unfold decodeFor at h
  split at h
  · simp at h; exact h.symm
  rename_i hn
  unfold decode at h
  split at h
  · simp at h; exact h.symm
  rename_i cur sup hc
  obtain ⟨h1, -, h3⟩ := collect_strict _ _ _ _ hc
  simp only [Option.or_none] at h3
  rcases hp with hp | hp | ⟨p, hp, hk⟩ | ⟨l, hl, s, hs, h0⟩
  · exact absurd hp hn
  · rw [hp] at h3; subst h3
    simp only [setSupported] at h
    unfold setCurrent at h
    split at h
    · simp at h
    · dsimp only at h
      split at h
      · simp at h; exact h.symm
      · split at h <;> simp at h
        exact h.symm
  · exact absurd (h1 p hp) hk
  · rw [hl] at h3; subst h3
    have hm : ∀ l m, s ∈ l → mask l m = none := by
      intro l
      induction l with
      | nil => intro m hh; cases hh
      | cons x l ih =>
        intro m hh
        rw [mask]
        split
        · rfl
        · rename_i hx
          rcases List.mem_cons.1 hh with rfl | hh
          · exact absurd h0 hx
          · exact ih _ hh
    rw [setSupported, hm l 0 hs] at h
    simp at h; exact h.symm

example : decodeFor .rfpro [(b "currentprofile", .str (b "1.3.6.1.4.1.51414.0.0.4.0"))] ⟨2, 2, 7⟩ = (false, ⟨2, 2, 7⟩) := by
  decide +kernel

/-- An accepted update can leave the current profile unsupported. -/
theorem unsupported_current_false : decodeFor .rfpro [(b "supportedprofiles", .strs [b "1.3.6.1.4.1.51414.0.0.2.0"])] ⟨2, 2, -1⟩ =
    (true, ⟨4, 2, -1⟩) ∧ ¬ Spec.Good ⟨4, 2, -1⟩ := by
  refine ⟨by decide +kernel, ?_⟩
  rintro ⟨-, h⟩; revert h; decide

/-- A refused update can change the supported profiles. -/
theorem refused_changes_false : decodeFor .rfpro
    [(b "currentprofile", .str (b "1.3.6.1.4.1.51414.0.0.1.0")), (b "supportedprofiles", .strs [b "1.3.6.1.4.1.51414.0.0.2.0"])]
    ⟨2, 2, -1⟩ = (false, ⟨4, 2, -1⟩) := by decide +kernel

/-! ### Restart -/

theorem names_mask (m : BitVec 32) (p : Bytes × BitVec 32) (hp : p ∈ oids) : p.1 ∈ names m ↔ m &&& p.2 ≠ 0 := by
  constructor
  · intro h
    simp only [names, List.mem_map, List.mem_filter] at h
    obtain ⟨q, ⟨hq, hne⟩, he⟩ := h
    have : q = p := by
      have hk : ∀ p ∈ oids, ∀ q ∈ oids, q.1 = p.1 → q = p := by decide +kernel
      exact hk p hp q hq he
    subst this
    simpa using hne
  · intro h
    simp only [names, List.mem_map, List.mem_filter]
    exact ⟨p, ⟨hp, by simpa using h⟩, rfl⟩

theorem mask_names (m : BitVec 32) : ∃ r, mask (names m) 0 = some r ∧ ∀ p ∈ oids, (r &&& p.2 ≠ 0 ↔ m &&& p.2 ≠ 0) := by
  have key : ∀ l, (∀ s ∈ l, ∃ p ∈ oids, p.1 = s) → ∀ m0, ∃ r, mask l m0 = some r := by
    intro l
    induction l with
    | nil => intro _ m0; exact ⟨_, rfl⟩
    | cons s l ih =>
      intro h m0
      obtain ⟨p, hp, hs⟩ := h s (by simp)
      have hv : ofString (s.takeWhile (· != 0)) ≠ 0 := by
        rw [← hs]; clear hs h ih; revert p; decide +kernel
      obtain ⟨r, hr⟩ := ih (fun s hs => h s (List.mem_cons_of_mem _ hs)) (m0 ||| ofString (s.takeWhile (· != 0)))
      exact ⟨r, by rw [mask]; rw [if_neg hv]; exact hr⟩
  have hmem : ∀ s ∈ names m, ∃ p ∈ oids, p.1 = s := by
    intro s hs
    simp only [names, List.mem_map, List.mem_filter] at hs
    obtain ⟨p, ⟨h, -⟩, he⟩ := hs
    exact ⟨p, h, he⟩
  obtain ⟨r, hr⟩ := key _ hmem 0
  refine ⟨r, hr, fun p hp => ?_⟩
  rw [mask_bits _ _ _ hr p hp, ← names_mask m p hp]
  constructor
  · rintro (h | ⟨s, hs, he⟩)
    · simp at h
    · obtain ⟨q, hq, hqs⟩ := hmem s hs
      have : s.takeWhile (· != 0) = s := by
        rw [← hqs]; clear hqs he hs; revert q; decide +kernel
      rw [this] at he
      rw [← he]; exact hs
  · intro h
    refine .inr ⟨_, h, ?_⟩
    clear h hr; revert p; decide +kernel

/-- Part of the property: a stored profile whose current one is supported is found
again after a restart with the device in any state but RFNOP. Missing: RFNOP
(`restart_rfnop_false`), the state of normal operation. -/
theorem restart_partial (dos : Acl.Dos) (hn : dos ≠ .rfnop) (d : Sp) (hd : Spec.Good d) (r : Rep)
    (he : encode d = .ok r) (d1 : Dev) (hb : boot dos (some r) = .ok d1) :
    d1.sp.current = d.current ∧ (∀ p ∈ oids, d1.sp.supported &&& p.2 ≠ 0 ↔ d.supported &&& p.2 ≠ 0) ∧ d1.stored = some r := by
  obtain ⟨⟨p, hp, hc⟩, hs⟩ := hd
  obtain ⟨e1, e2, e3⟩ := ofString_oid p hp
  rw [encode, hc, e3] at he
  simp only [Out.ok.injEq] at he
  obtain ⟨m, hm, hb'⟩ := mask_names d.supported
  have hdec : decodeFor dos r ⟨0, 0, 0⟩ = (true, ⟨m, p.2, 0⟩) := by
    rw [decodeFor, if_neg hn, ← he, decode]
    have hcl : collect false [(b "currentprofile", Val.str p.1), (b "supportedprofiles", Val.strs (names d.supported))] none none =
        some (some p.1, some (names d.supported)) := by
      have e1 : collect false [(b "supportedprofiles", Val.strs (names d.supported))] (some p.1) none =
          some (some p.1, some (names d.supported)) := by
        rw [collect]; rfl
      rw [collect]; exact e1
    rw [hcl]
    dsimp only
    rw [setSupported, hm]
    dsimp only [Option.map]
    rw [setCurrent]
    dsimp only
    rw [e1, if_neg e2, if_neg]
    have := (hb' p hp).2 (by rw [hc] at hs; rwa [BitVec.and_comm])
    rw [BitVec.and_comm]
    exact this
  rw [boot, load] at hb
  dsimp only at hb
  rw [hdec] at hb
  simp only [if_true, Out.ok.injEq] at hb
  subst hb
  exact ⟨hc.symm, hb', rfl⟩

example : ∃ r d1, encode ⟨20, 16, 7⟩ = .ok r ∧ boot .rfpro (some r) = .ok d1 ∧ d1.sp = ⟨20, 16, 0⟩ := by
  refine ⟨_, _, rfl, rfl, ?_⟩; decide +kernel

/-- After a restart in normal operation (RFNOP) the stored profile is refused: the
device falls back to the default profile and overwrites the stored one. -/
theorem restart_rfnop_false : ∃ r d1, encode ⟨20, 16, 7⟩ = .ok r ∧ boot .rfnop (some r) = .ok d1 ∧
    d1.sp = ⟨2, 2, -1⟩ ∧ encode d1.sp = .ok (d1.stored.getD []) := by
  refine ⟨_, _, rfl, rfl, ?_, rfl⟩; decide +kernel

end Verif.Sp
