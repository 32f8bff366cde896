import Verif.Rfc3339.Parse
import Verif.Storage.Lemmas
/-! C59: RFC 3339 texts; C60: conversions of certificate times. -/
namespace Verif.Rfc3339
open Spec

theorem frac_ends {f : Option (Nat × Nat)} {z : Zone} (hz : z.Ok) {c : UInt8} {l : Bytes} (h : z.text = c :: l) :
    Ends f c := by
  have : c = 90 ∨ c = 122 ∨ c = 43 ∨ c = 45 := by
    cases z with
    | utc x =>
      have := (List.cons.inj h).1
      rcases hz with hz | hz <;> subst hz <;> simp [← this]
    | off neg a b =>
      have := (List.cons.inj h).1
      cases neg <;> simp at this <;> simp [← this]
  unfold Ends
  rcases this with rfl | rfl | rfl | rfl <;> cases f <;> simp

theorem checkFormat_eq {s : Bytes} {c4 c7 c10 c13 c16 : UInt8} (hl : 20 ≤ s.length) (h4 : s[4]? = some c4)
    (h7 : s[7]? = some c7) (h10 : s[10]? = some c10) (h13 : s[13]? = some c13) (h16 : s[16]? = some c16) :
    checkFormat s = .ok (decide (c4 = 45 ∧ c7 = 45 ∧ c13 = 58 ∧ c16 = 58 ∧ (c10 = 84 ∨ c10 = 32 ∨ c10 = 116))) := by
  unfold checkFormat Out.get
  rw [if_neg (by omega), h4, h7, h10, h13, h16]
  simp only [Out.bind]
  by_cases a : c4 = 45
  · subst a
    by_cases b : c7 = 45
    · subst b
      by_cases c : c13 = 58
      · subst c
        by_cases d : c16 = 58
        · subst d
          simp only [bne_self_eq_false, Bool.false_eq_true, if_false, true_and]
          congr 1
          rw [Bool.eq_iff_iff]
          simp only [Bool.or_eq_true, beq_iff_eq, decide_eq_true_eq, or_assoc]
        · simp [d]
      · simp [c]
    · simp [b]
  · simp [a]

theorem destruct20 (s : Bytes) (h : 20 ≤ s.length) : ∃ c0 c1 c2 c3 c4 c5 c6 c7 c8 c9 c10 c11 c12 c13 c14 c15 c16 c17 c18 c19 l,
    s = c0 :: c1 :: c2 :: c3 :: c4 :: c5 :: c6 :: c7 :: c8 :: c9 :: c10 :: c11 :: c12 :: c13 :: c14 :: c15 :: c16 ::
      c17 :: c18 :: c19 :: l := by
  have step : ∀ (n : Nat) (s : Bytes), n + 1 ≤ s.length → ∃ c l, s = c :: l ∧ n ≤ l.length := by
    intro n s h
    cases s with
    | nil => simp at h
    | cons c l => exact ⟨c, l, rfl, by simpa using h⟩
  obtain ⟨c0, l0, e0, h0⟩ := step 19 s h
  obtain ⟨c1, l1, e1, h1⟩ := step 18 l0 h0
  obtain ⟨c2, l2, e2, h2⟩ := step 17 l1 h1
  obtain ⟨c3, l3, e3, h3⟩ := step 16 l2 h2
  obtain ⟨c4, l4, e4, h4⟩ := step 15 l3 h3
  obtain ⟨c5, l5, e5, h5⟩ := step 14 l4 h4
  obtain ⟨c6, l6, e6, h6⟩ := step 13 l5 h5
  obtain ⟨c7, l7, e7, h7⟩ := step 12 l6 h6
  obtain ⟨c8, l8, e8, h8⟩ := step 11 l7 h7
  obtain ⟨c9, l9, e9, h9⟩ := step 10 l8 h8
  obtain ⟨c10, l10, e10, h10⟩ := step 9 l9 h9
  obtain ⟨c11, l11, e11, h11⟩ := step 8 l10 h10
  obtain ⟨c12, l12, e12, h12⟩ := step 7 l11 h11
  obtain ⟨c13, l13, e13, h13⟩ := step 6 l12 h12
  obtain ⟨c14, l14, e14, h14⟩ := step 5 l13 h13
  obtain ⟨c15, l15, e15, h15⟩ := step 4 l14 h14
  obtain ⟨c16, l16, e16, h16⟩ := step 3 l15 h15
  obtain ⟨c17, l17, e17, h17⟩ := step 2 l16 h16
  obtain ⟨c18, l18, e18, h18⟩ := step 1 l17 h17
  obtain ⟨c19, l19, e19, h19⟩ := step 0 l18 h18
  exact ⟨c0, c1, c2, c3, c4, c5, c6, c7, c8, c9, c10, c11, c12, c13, c14, c15, c16, c17, c18, c19, l19, by rw [e0, e1, e2, e3, e4, e5, e6, e7, e8, e9, e10, e11, e12, e13, e14, e15, e16, e17, e18, e19]⟩

theorem text_length (p : Parts) : p.text.length = 19 + (Spec.fracText p.frac ++ p.zone.text).length := by
  unfold Parts.text
  simp only [List.length_append, List.length_cons, pad_length]

theorem zone_ne (z : Zone) : 1 ≤ z.text.length := by cases z <;> simp [Zone.text]

/-- C59. The parser never reads outside of the text, whatever it is, and accepts
exactly the RFC 3339 texts with an existing date and time (`Parts.Ok`), for which it
returns the instant, the nanoseconds and the offset they denote. -/
theorem parse_iff (s : Bytes) : ∃ r, parse s = .ok r ∧ ∀ t, r = some t ↔
    ∃ p : Parts, p.Ok ∧ s = p.text ∧ t = ⟨p.sec, fracNsec p.frac, p.zone.minutes⟩ := by
  by_cases hl : 20 ≤ s.length
  · obtain ⟨c0, c1, c2, c3, c4, c5, c6, c7, c8, c9, c10, c11, c12, c13, c14, c15, c16, c17, c18, c19, l, hs⟩ := destruct20 s hl
    have g : ∀ i : Nat, s[i]? = (c0 :: c1 :: c2 :: c3 :: c4 :: c5 :: c6 :: c7 :: c8 :: c9 :: c10 :: c11 :: c12 :: c13 :: c14 ::
      c15 :: c16 :: c17 :: c18 :: c19 :: l)[i]? := by intro i; rw [hs]
    -- the shape of a text
    have shape : ∀ p : Parts, s = p.text → c4 = 45 ∧ c7 = 45 ∧ c13 = 58 ∧ c16 = 58 ∧ c10 = p.sep ∧
        [c0, c1, c2, c3] = pad 4 p.y ∧ [c5, c6] = pad 2 p.m ∧ [c8, c9] = pad 2 p.d ∧ [c11, c12] = pad 2 p.h ∧
        [c14, c15] = pad 2 p.mi ∧ [c17, c18] = pad 2 p.se ∧ c19 :: l = Spec.fracText p.frac ++ p.zone.text := by
      intro p e
      rw [hs] at e
      unfold Parts.text at e
      have q4 : pad 4 p.y = [UInt8.ofNat (48 + p.y / 10 / 10 / 10 % 10), UInt8.ofNat (48 + p.y / 10 / 10 % 10),
        UInt8.ofNat (48 + p.y / 10 % 10), UInt8.ofNat (48 + p.y % 10)] := rfl
      rw [q4]
      rw [q4] at e
      simp only [pad2, List.cons_append, List.nil_append, List.cons.injEq] at e ⊢
      obtain ⟨e0, e1, e2, e3, e4, e5, e6, e7, e8, e9, e10, e11, e12, e13, e14, e15, e16, e17, e18, e19⟩ := e
      exact ⟨e4, e7, e13, e16, e10, ⟨e0, e1, e2, e3, trivial⟩, ⟨e5, e6, trivial⟩, ⟨e8, e9, trivial⟩, ⟨e11, e12, trivial⟩, ⟨e14, e15, trivial⟩, ⟨e17, e18, trivial⟩, e19⟩
    unfold parse
    rw [checkFormat_eq hl (g 4) (g 7) (g 10) (g 13) (g 16)]
    simp only [Out.bind]
    by_cases hf : c4 = 45 ∧ c7 = 45 ∧ c13 = 58 ∧ c16 = 58 ∧ (c10 = 84 ∨ c10 = 32 ∨ c10 = 116)
    · rw [decide_eq_true hf]
      simp only [Bool.not_true, Bool.false_eq_true, if_false]
      obtain ⟨rd, hrd, hrd'⟩ := some_iff_date (g 0) (g 1) (g 2) (g 3) (g 5) (g 6) (g 8) (g 9)
      obtain ⟨rt, hrt, hrt'⟩ := some_iff_time (g 11) (g 12) (g 14) (g 15) (g 17) (g 18)
      obtain ⟨rf, hrf, hrf'⟩ := some_iff_frac c19 l
      have hdrop : s.drop 19 = c19 :: l := by rw [hs]; rfl
      rw [hrd, hrt, hdrop, hrf]
      cases rd with
      | none =>
        refine ⟨none, rfl, fun t => ⟨fun h => (by cases h), ?_⟩⟩
        rintro ⟨p, ok, ps, pt⟩
        obtain ⟨_, _, _, _, _, s1, s2, s3, _⟩ := shape p ps
        have := (hrd' _ p.m p.d).2 ⟨p.y, ok.date, ok.y4, rfl, s1, s2, s3⟩
        cases this
      | some d3 =>
        obtain ⟨y', m, d⟩ := d3
        obtain ⟨y, hdate, hy4, hy', py, pm, pd⟩ := (hrd' y' m d).1 rfl
        dsimp only
        cases rt with
        | none =>
          refine ⟨none, rfl, fun t => ⟨fun h => (by cases h), ?_⟩⟩
          rintro ⟨p, ok, ps, pt⟩
          obtain ⟨_, _, _, _, _, _, _, _, s1, s2, s3, _⟩ := shape p ps
          have := (hrt' p.h p.mi p.se).2 ⟨ok.h, ok.mi, ok.se, s1, s2, s3⟩
          cases this
        | some t3 =>
          obtain ⟨h, mi, se⟩ := t3
          obtain ⟨hh, hmi, hse, ph, pmi, pse⟩ := (hrt' h mi se).1 rfl
          dsimp only
          rw [hy', rdnOf_spec y m d hdate hy4]
          dsimp only
          cases rf with
          | none =>
            refine ⟨none, rfl, fun t => ⟨fun h => (by cases h), ?_⟩⟩
            rintro ⟨p, ok, ps, pt⟩
            obtain ⟨_, _, _, _, _, _, _, _, _, _, _, s4⟩ := shape p ps
            cases hz : p.zone.text with
            | nil => have := zone_ne p.zone; rw [hz] at this; simp at this
            | cons c l' =>
              rw [hz] at s4
              have := (hrf' _ c l').2 ⟨p.frac, ok.frac, s4, rfl, frac_ends ok.zone hz⟩
              cases this
          | some f3 =>
            obtain ⟨n, ch, l'⟩ := f3
            obtain ⟨f, f1, f2, f3, f4⟩ := (hrf' n ch l').1 rfl
            dsimp only
            obtain ⟨rz, hrz, hrz'⟩ := some_iff_zone ch l'
            rw [hrz]
            dsimp only
            refine ⟨_, rfl, fun t => ⟨fun e => ?_, ?_⟩⟩
            · cases rz with
              | none => cases e
              | some off =>
                have e := Option.some.inj e
                obtain ⟨z, z1, z2, z3⟩ := (hrz' off).1 rfl
                refine ⟨⟨y, m, d, c10, h, mi, se, f, z⟩, ⟨hdate, hy4, hf.2.2.2.2, hh, hmi, hse, f1, z1⟩, ?_, ?_⟩
                · rw [hs]
                  show _ = pad 4 y ++ 45 :: pad 2 m ++ 45 :: pad 2 d ++ c10 :: pad 2 h ++ 58 :: pad 2 mi ++ 58 :: pad 2 se ++
                    (Spec.fracText f ++ z.text)
                  rw [← py, ← pm, ← pd, ← ph, ← pmi, ← pse, ← z2, ← f2, hf.1, hf.2.1, hf.2.2.1, hf.2.2.2.1]
                  rfl
                · rw [← e]
                  unfold Parts.sec instant
                  rw [epoch_day, f3, z3]
                  rfl
            · rintro ⟨p, ok, ps, pt⟩
              obtain ⟨_, _, _, _, _, s1, s2, s3, s4, s5, s6, s7⟩ := shape p ps
              cases hz : p.zone.text with
              | nil => have := zone_ne p.zone; rw [hz] at this; simp at this
              | cons c l2 =>
                rw [hz] at s7
                have e1 := (hrf' _ c l2).2 ⟨p.frac, ok.frac, s7, rfl, frac_ends ok.zone hz⟩
                simp only [Option.some.injEq, Prod.mk.injEq] at e1
                obtain ⟨e1, e2, e3⟩ := e1
                subst e2 e3
                have e4 := (hrz' _).2 ⟨p.zone, ok.zone, hz.symm, rfl⟩
                have e5 := (hrt' p.h p.mi p.se).2 ⟨ok.h, ok.mi, ok.se, s4, s5, s6⟩
                simp only [Option.some.injEq, Prod.mk.injEq] at e5
                obtain ⟨e5, e6, e7⟩ := e5
                have q1 := (num4_iff c0 c1 c2 c3 y).2 ⟨hy4, py⟩
                rw [(num4_iff c0 c1 c2 c3 p.y).2 ⟨ok.y4, s1⟩] at q1
                have q1 := Option.some.inj q1
                have e8 := (hrd' _ p.m p.d).2 ⟨p.y, ok.date, ok.y4, rfl, s1, s2, s3⟩
                simp only [Option.some.injEq, Prod.mk.injEq] at e8
                obtain ⟨e8, e9, e10⟩ := e8
                rw [e4, pt]
                simp only [Option.map_some]
                unfold Parts.sec instant
                rw [epoch_day, e1, e5, e6, e7, ← e9, ← e10, ← q1]
                rfl
    · rw [decide_eq_false hf]
      refine ⟨none, rfl, fun t => ⟨fun h => (by cases h), ?_⟩⟩
      rintro ⟨p, ok, ps, pt⟩
      obtain ⟨s1, s2, s3, s4, s5, _⟩ := shape p ps
      exact absurd ⟨s1, s2, s3, s4, s5 ▸ ok.sep⟩ hf
  · unfold parse checkFormat
    rw [if_pos (by omega)]
    refine ⟨none, rfl, fun t => ⟨fun h => (by cases h), ?_⟩⟩
    rintro ⟨p, ok, ps, pt⟩
    exfalso
    apply hl
    have h1 := text_length p
    have h2 := zone_ne p.zone
    rw [List.length_append] at h1
    rw [ps]; omega

/-- C59. Every accepted time stamp is valid. -/
theorem parse_valid (s : Bytes) (t : TS) (h : parse s = .ok (some t)) : valid t = .ok true := by
  obtain ⟨r, h1, h2⟩ := parse_iff s
  rw [h] at h1
  obtain ⟨p, ok, _, pt⟩ := (h2 t).1 (Out.ok.inj h1).symm
  have hn : fracNsec p.frac < 1000000000 := by
    cases hf : p.frac with
    | none => simp [fracNsec]
    | some f =>
      obtain ⟨k, v⟩ := f
      obtain ⟨g1, g2, g3⟩ := ok.frac k v hf
      exact frac_lt g2 g3
  have hz : -1439 ≤ p.zone.minutes ∧ p.zone.minutes ≤ 1439 := by
    cases hz : p.zone with
    | utc c => simp [Zone.minutes]
    | off neg a b =>
      have := ok.zone
      rw [hz] at this
      have ⟨z1, z2⟩ := this
      unfold Zone.minutes
      dsimp only
      have : a * 60 + b ≤ 1439 := by omega
      split <;> omega
  have hday : 1 ≤ dayNumber p.y p.m p.d ∧ dayNumber p.y p.m p.d ≤ 3652059 := by
    have := ok.date.d1
    have hm : daysBeforeMonth p.y p.m + p.d ≤ daysBeforeMonth p.y (p.m + 1) := by
      rw [daysBeforeMonth, if_neg (by have := ok.date.m1; omega)]
      have := ok.date.dl; omega
    have mono : ∀ a b, a ≤ b → daysBeforeMonth p.y a ≤ daysBeforeMonth p.y b := by
      intro a b hab
      induction hab with
      | refl => exact Nat.le_refl _
      | step _ ih =>
        refine Nat.le_trans ih ?_
        rw [daysBeforeMonth]; split
        · rename_i h; rw [h]; exact Nat.le_refl _
        · omega
    have h13 := mono (p.m + 1) 13 (by have := ok.date.m12; omega)
    rw [dbm_13] at h13
    have hy : daysBeforeYear (p.y + 1) = daysBeforeYear p.y + yearLen p.y := by
      rw [daysBeforeYear, if_neg (by have := ok.date.y1; omega)]
    have hy2 := dby_mono (by have := ok.y4; omega : p.y + 1 ≤ 10000)
    rw [dby_10000] at hy2
    unfold dayNumber
    omega
  have hh := ok.h
  have hmi := ok.mi
  have hse := ok.se
  subst pt
  unfold valid Parts.sec instant inI64
  rw [epoch_day]
  dsimp only
  generalize dayNumber p.y p.m p.d = n at *
  generalize p.zone.minutes = o at *
  generalize fracNsec p.frac = f at *
  have e : ((n : Int) - (719163 : Nat)) * 86400 + (p.h * 3600 + p.mi * 60 + p.se : Nat) - o * 60 + o * 60 =
      ((n : Int) - 719163) * 86400 + (p.h * 3600 + p.mi * 60 + p.se : Nat) := by omega
  rw [e]
  have c1 : ¬ ((n : Int) - 719163) * 86400 + (p.h * 3600 + p.mi * 60 + p.se : Nat) < -62135596800 := by omega
  have c2 : ¬ ((n : Int) - 719163) * 86400 + (p.h * 3600 + p.mi * 60 + p.se : Nat) > 253402300799 := by omega
  have c0 : (-9223372036854775808 : Int) ≤ ((n : Int) - 719163) * 86400 + (p.h * 3600 + p.mi * 60 + p.se : Nat) ∧
      ((n : Int) - 719163) * 86400 + (p.h * 3600 + p.mi * 60 + p.se : Nat) ≤ 9223372036854775807 := by omega
  rw [decide_eq_true c0, decide_eq_false c1, decide_eq_false c2, decide_eq_false (by omega : ¬ (f : Int) < 0),
    decide_eq_false (by omega : ¬ (f : Int) > 999999999), decide_eq_false (by omega : ¬ o < -1439),
    decide_eq_false (by omega : ¬ o > 1439)]
  rfl

/-! ### Formatting -/

theorem dig_pad4 (y : Nat) : [dig (y / 10 / 10 / 10), dig (y / 10 / 10), dig (y / 10), dig y] = pad 4 y := rfl

theorem text19_eq (y m d v : Nat) (hv : v < 86400) : text19 y m d v =
    pad 4 y ++ 45 :: pad 2 m ++ 45 :: pad 2 d ++ 84 :: pad 2 (v / 3600) ++ 58 :: pad 2 (v / 60 % 60) ++ 58 :: pad 2 (v % 60) := by
  have h1 : v / 10 / 6 / 10 / 6 / 10 % 10 = v / 3600 / 10 % 10 := by omega
  have h2 : v / 10 / 6 / 10 / 6 % 10 = v / 3600 % 10 := by omega
  have h3 : v / 10 / 6 / 10 % 6 = v / 60 % 60 / 10 % 10 := by omega
  have h4 : v / 10 / 6 % 10 = v / 60 % 60 % 10 := by omega
  have h5 : v / 10 % 6 = v % 60 / 10 % 10 := by omega
  have h6 : v % 10 = v % 60 % 10 := by omega
  unfold text19 dig dig6
  rw [h1, h2, h3, h4, h5, h6]
  rfl

theorem fracDigits_eq : ∀ k v, fracDigits k v = pad k v
  | 0, _ => rfl
  | k + 1, v => by rw [fracDigits, pad, fracDigits_eq]; rfl

/-- The zone written for an offset. -/
def zoneOf (o : Int) : Zone := if o = 0 then .utc 90 else .off (decide (o < 0)) (o.natAbs / 60) (o.natAbs % 60)

theorem zoneOf_spec {o : Int} (h1 : -1439 ≤ o) (h2 : o ≤ 1439) :
    (zoneOf o).Ok ∧ (zoneOf o).minutes = o ∧ offText o = (zoneOf o).text ∧
    (offText o).length = if o ≠ 0 then 6 else 1 := by
  unfold zoneOf offText
  by_cases h : o = 0
  · subst h
    exact ⟨Or.inl rfl, rfl, rfl, rfl⟩
  · rw [if_neg h, if_neg h]
    refine ⟨⟨by omega, by omega⟩, ?_, ?_, ?_⟩
    · unfold Zone.minutes
      dsimp only
      split
      · rename_i hh; have := of_decide_eq_true hh; omega
      · rename_i hh; have hh : ¬ o < 0 := fun h => hh (decide_eq_true h); omega
    · unfold Zone.text
      dsimp only
      generalize hv : o.natAbs = v
      have e1 : v / 10 / 6 / 10 % 10 = v / 60 / 10 % 10 := by omega
      have e2 : v / 10 / 6 % 10 = v / 60 % 10 := by omega
      have e3 : v / 10 % 6 = v % 60 / 10 % 10 := by omega
      have e4 : v % 10 = v % 60 % 10 := by omega
      unfold dig dig6
      rw [e1, e2, e3, e4]
      by_cases hn : o < 0
      · rw [if_pos hn, decide_eq_true hn]; rfl
      · rw [if_neg hn, decide_eq_false hn]; rfl
    · rw [if_pos h]; rfl

/-- The fraction written with `k` digits. -/
def fracOf (k nsec : Nat) : Option (Nat × Nat) := if k = 0 then none else some (k, nsec / 10 ^ (9 - k))

theorem fracOf_spec {k nsec : Nat} (hk : k ≤ 9) (hn : nsec < 1000000000) :
    FracOk (fracOf k nsec) ∧ fracText k nsec = Spec.fracText (fracOf k nsec) ∧
    fracNsec (fracOf k nsec) = (if k = 0 then 0 else nsec / 10 ^ (9 - k) * 10 ^ (9 - k)) ∧
    (fracText k nsec).length = if k ≠ 0 then 1 + k else 0 := by
  unfold fracOf fracText
  by_cases h : k = 0
  · subst h
    exact ⟨fun _ _ h => (by cases h), rfl, rfl, rfl⟩
  · rw [if_neg h, if_neg h, if_neg h, if_pos h]
    refine ⟨?_, ?_, rfl, ?_⟩
    · intro a b e
      cases e
      refine ⟨by omega, hk, ?_⟩
      rw [Nat.div_lt_iff_lt_mul (Nat.pow_pos (by decide)), pow_split hk]
      exact hn
    · rw [fracDigits_eq]; rfl
    · rw [fracDigits_eq, List.length_cons, pad_length]; omega

theorem writeAt_end (x bs rest : Bytes) (h : bs.length ≤ rest.length) :
    writeAt (x ++ rest) x.length bs = x ++ bs ++ rest.drop bs.length := by
  unfold writeAt
  rw [List.take_left' rfl]
  congr 1
  rw [List.drop_append, List.drop_of_length_le (by omega), List.nil_append]
  congr 1; omega

theorem writeChk_end (x bs rest : Bytes) (n : Nat) (hn : n = x.length) (h : bs.length ≤ rest.length) :
    writeChk (x ++ rest) n bs = .ok (x ++ (bs ++ rest.drop bs.length)) := by
  subst hn
  rw [Storage.writeChk_ok (by rw [List.length_append]; omega), writeAt_end _ _ _ h, List.append_assoc]

/-- What a valid time stamp is. -/
theorem valid_iff (t : TS) : valid t = .ok true ↔ -62135596800 ≤ t.sec + t.offset * 60 ∧ t.sec + t.offset * 60 ≤ 253402300799 ∧
    0 ≤ t.nsec ∧ t.nsec ≤ 999999999 ∧ -1439 ≤ t.offset ∧ t.offset ≤ 1439 := by
  unfold valid inI64
  dsimp only
  generalize t.sec + t.offset * 60 = s
  by_cases h : -9223372036854775808 ≤ s ∧ s ≤ 9223372036854775807
  · rw [decide_eq_true h]
    simp only [Bool.not_true, Bool.false_eq_true, if_false, Out.ok.injEq, Bool.not_eq_true', Bool.or_eq_false_iff,
      decide_eq_false_iff_not]
    omega
  · rw [decide_eq_false h]
    simp only [Bool.not_false, if_true]
    constructor
    · intro h; cases h
    · intro h'; exact absurd ⟨by omega, by omega⟩ h

/-- The local day and second of the day of a valid time stamp. -/
theorem civil (s : Int) (h1 : -62135596800 ≤ s) (h2 : s ≤ 253402300799) : ∃ y m d v, Date y m d ∧ y ≤ 9999 ∧ v < 86400 ∧
    s + 62135683200 = (dayNumber y m d : Int) * 86400 + (v : Nat) ∧ dayNumber y m d ≤ 3652059 := by
  have hx : ∃ x : Nat, s + 62135683200 = (x : Int) := ⟨(s + 62135683200).toNat, by omega⟩
  obtain ⟨x, hx⟩ := hx
  have hd := exists_date 9999 (x / 86400) (by omega) (by rw [dby_10000]; omega)
  obtain ⟨y, m, d, a, b, c⟩ := hd
  exact ⟨y, m, d, x % 86400, a, b, Nat.mod_lt _ (by decide), by rw [c, hx]; omega, by rw [c]; omega⟩

theorem formatInternal_spec (dst : Bytes) (t : TS) (k : Nat) (hv : valid t = .ok true) (hk : k ≤ 9) :
    ∃ p : Parts, p.Ok ∧ p.sep = 84 ∧ p.sec = t.sec ∧ p.zone = zoneOf t.offset ∧ p.frac = fracOf k t.nsec.toNat ∧
      p.zone.minutes = t.offset ∧
      formatInternal dst t k =
        if p.text.length < dst.length then .ok (p.text.length, p.text ++ 0 :: dst.drop (p.text.length + 1)) else .ok (0, dst) := by
  have ⟨v1, v2, v3, v4, v5, v6⟩ := (valid_iff t).1 hv
  obtain ⟨y, m, d, v, hd, hy, hv, hs, hn⟩ := civil _ v1 v2
  have ⟨z1, z2, z3, z4⟩ := zoneOf_spec v5 v6
  have ⟨f1, f2, f3, f4⟩ := fracOf_spec (nsec := t.nsec.toNat) hk (by omega)
  let p : Parts := ⟨y, m, d, 84, v / 3600, v / 60 % 60, v % 60, fracOf k t.nsec.toNat, zoneOf t.offset⟩
  have ptext : p.text = text19 y m d v ++ (fracText k t.nsec.toNat ++ offText t.offset) := by
    rw [text19_eq y m d v hv, f2, z3]; rfl
  have l19 : (text19 y m d v).length = 19 := rfl
  have plen : p.text.length = 20 + (if t.offset ≠ 0 then 5 else 0) + (if k ≠ 0 then 1 + k else 0) := by
    rw [ptext, List.length_append, List.length_append, l19, f4, z4]
    by_cases h : t.offset = 0
    · rw [if_neg (not_not_intro h), if_neg (not_not_intro h)]; omega
    · rw [if_pos h, if_pos h]; omega
  refine ⟨p, ⟨hd, hy, Or.inl rfl, ?_, ?_, ?_, f1, z1⟩, rfl, ?_, rfl, rfl, z2, ?_⟩
  · show v / 3600 ≤ 23; omega
  · show v / 60 % 60 ≤ 59; omega
  · show v % 60 ≤ 59; omega
  · show instant y m d (v / 3600) (v / 60 % 60) (v % 60) (zoneOf t.offset).minutes = t.sec
    unfold instant
    rw [epoch_day, z2]
    have : v / 3600 * 3600 + v / 60 % 60 * 60 + v % 60 = v := by omega
    rw [this]
    generalize dayNumber y m d = n at *
    omega
  · unfold formatInternal
    dsimp only
    rw [← plen]
    by_cases hl : p.text.length < dst.length
    · rw [if_neg (by omega), if_pos hl]
      have hI : inI64 (t.sec + t.offset * 60 + 62135683200) = true := by
        unfold inI64
        rw [decide_eq_true_eq]
        omega
      rw [hI, hs]
      simp only [Bool.not_true, Bool.false_eq_true, if_false]
      have e1 : (((dayNumber y m d : Int) * 86400 + (v : Nat)).tdiv 86400 % (u32 : Int)).toNat = dayNumber y m d := by
        rw [Int.tdiv_eq_ediv_of_nonneg (by omega)]
        unfold u32
        generalize dayNumber y m d = n at *
        omega
      have e2 : (((dayNumber y m d : Int) * 86400 + (v : Nat)).tmod 86400 % (u32 : Int)).toNat = v := by
        rw [Int.tmod_eq_emod_of_nonneg (by omega)]
        unfold u32
        generalize dayNumber y m d = n at *
        omega
      rw [e1, e2, rdnToYmd_spec y m d hd hy]
      simp only [Out.bind]
      rw [ptext] at hl ⊢
      generalize htx : text19 y m d v = T at *
      generalize hfx : fracText k t.nsec.toNat = F at *
      generalize hox : offText t.offset = O at *
      rw [List.length_append, List.length_append] at hl
      have w1 := writeChk_end [] T dst 0 rfl (by omega)
      rw [List.nil_append, List.nil_append] at w1
      rw [w1]
      dsimp only
      have w2 := writeChk_end T F (dst.drop T.length) 19 l19.symm (by rw [List.length_drop]; omega)
      rw [w2]
      dsimp only
      have w3 := writeChk_end (T ++ F) O (dst.drop (T.length + F.length)) (19 + F.length)
        (by rw [List.length_append, l19]) (by rw [List.length_drop]; omega)
      rw [List.drop_drop, ← List.append_assoc, w3]
      dsimp only
      have w4 := writeChk_end (T ++ F ++ O) [0] (dst.drop (T.length + F.length + O.length)) (19 + F.length + O.length)
        (by rw [List.length_append, List.length_append, l19]) (by rw [List.length_drop, List.length_singleton]; omega)
      rw [List.drop_drop, ← List.append_assoc, w4]
      dsimp only
      rw [List.drop_drop, List.length_singleton, List.length_append, List.length_append]
      have q : T.length + (F.length + O.length) = T.length + F.length + O.length := by omega
      rw [q]
      simp only [List.append_assoc, List.singleton_append]
    · rw [if_pos (by omega), if_neg hl]

end Verif.Rfc3339
