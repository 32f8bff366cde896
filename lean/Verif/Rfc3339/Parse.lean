import Verif.Rfc3339.Lemmas
/-! The parser accepts exactly the RFC 3339 texts and finds their instant (C59). -/
namespace Verif.Rfc3339
open Spec

theorem digit_none {c : UInt8} : (c - 48 > 9) → ∀ v, v < 10 → c ≠ UInt8.ofNat (48 + v) := by
  revert c
  apply forall_u8
  decide +kernel

theorem digit_some {c : UInt8} : ¬ (c - 48 > 9) → (c - 48).toNat < 10 ∧ c = UInt8.ofNat (48 + (c - 48).toNat) := by
  revert c
  apply forall_u8
  decide +kernel

theorem digit_of (v : Nat) (h : v < 10) : ¬ (UInt8.ofNat (48 + v) - 48 > 9) ∧ (UInt8.ofNat (48 + v) - 48).toNat = v := by
  have : ∀ v : Fin 10, ¬ (UInt8.ofNat (48 + v.val) - 48 > 9) ∧ (UInt8.ofNat (48 + v.val) - 48).toNat = v.val := by
    decide +kernel
  exact this ⟨v, h⟩

theorem pad_length : ∀ k n, (pad k n).length = k
  | 0, _ => rfl
  | k + 1, n => by rw [pad, List.length_append, pad_length]; rfl

theorem pad2 (v : Nat) : pad 2 v = [UInt8.ofNat (48 + v / 10 % 10), UInt8.ofNat (48 + v % 10)] := rfl

theorem pad4 (v : Nat) : pad 4 v = pad 2 (v / 100) ++ pad 2 (v % 100) := by
  simp only [pad, List.nil_append, List.cons_append]
  have h1 : v / 10 / 10 / 10 % 10 = v / 100 / 10 % 10 := by omega
  have h2 : v / 10 / 10 % 10 = v / 100 % 10 := by omega
  have h3 : v / 10 % 10 = v % 100 / 10 % 10 := by omega
  have h4 : v % 10 = v % 100 % 10 := by omega
  rw [h1, h2, h3, h4]

/-- Two characters are a number or not. -/
def num2 (a b : UInt8) : Option Nat :=
  if a - 48 > 9 then none else if b - 48 > 9 then none else some ((a - 48).toNat * 10 + (b - 48).toNat)

theorem num2_iff (a b : UInt8) (v : Nat) : num2 a b = some v ↔ v < 100 ∧ [a, b] = pad 2 v := by
  unfold num2
  constructor
  · intro h
    split at h
    · cases h
    · rename_i h1
      split at h
      · cases h
      · rename_i h2
        have h := Option.some.inj h
        obtain ⟨p1, p2⟩ := digit_some h1
        obtain ⟨q1, q2⟩ := digit_some h2
        generalize (a - 48).toNat = x at *
        generalize (b - 48).toNat = y at *
        refine ⟨by omega, ?_⟩
        rw [pad2, p2, q2]
        have e1 : v / 10 % 10 = x := by omega
        have e2 : v % 10 = y := by omega
        rw [e1, e2]
  · rintro ⟨hv, h⟩
    rw [pad2] at h
    have h1 := (List.cons.inj h).1
    have h2 := (List.cons.inj (List.cons.inj h).2).1
    have ⟨p1, p2⟩ := digit_of (v / 10 % 10) (by omega)
    have ⟨q1, q2⟩ := digit_of (v % 10) (by omega)
    rw [h1, h2, if_neg p1, if_neg q1, p2, q2]
    congr 1; omega

theorem parse2d_eq {s : Bytes} {i : Nat} {a b : UInt8} (ha : s[i]? = some a) (hb : s[i + 1]? = some b) :
    parse2d s i = .ok (num2 a b) := by
  unfold parse2d digit Out.get num2
  rw [ha, hb]
  simp only [Out.bind]
  by_cases h1 : a - 48 > 9
  · rw [if_pos h1, if_pos h1]
  · rw [if_neg h1, if_neg h1]
    dsimp only
    by_cases h2 : b - 48 > 9
    · rw [if_pos h2, if_pos h2]; rfl
    · rw [if_neg h2, if_neg h2]; rfl

/-- Four characters are a number or not. -/
def num4 (a b c d : UInt8) : Option Nat :=
  match num2 a b with
  | none => none
  | some x => (num2 c d).map fun y => x * 100 + y

theorem num4_iff (a b c d : UInt8) (v : Nat) : num4 a b c d = some v ↔ v ≤ 9999 ∧ [a, b, c, d] = pad 4 v := by
  unfold num4
  rw [pad4]
  have happ : [a, b, c, d] = [a, b] ++ [c, d] := rfl
  rw [happ]
  constructor
  · intro h
    cases h1 : num2 a b with
    | none => rw [h1] at h; cases h
    | some x =>
      cases h2 : num2 c d with
      | none => rw [h1, h2] at h; cases h
      | some y =>
        rw [h1, h2] at h
        have h : x * 100 + y = v := Option.some.inj h
        obtain ⟨p1, p2⟩ := (num2_iff ..).1 h1
        obtain ⟨q1, q2⟩ := (num2_iff ..).1 h2
        refine ⟨by omega, ?_⟩
        have e1 : v / 100 = x := by omega
        have e2 : v % 100 = y := by omega
        rw [e1, e2, p2, q2]
  · rintro ⟨hv, h⟩
    have ⟨h1, h2⟩ := List.append_inj h (by rw [pad_length]; rfl)
    rw [(num2_iff a b (v / 100)).2 ⟨by omega, h1⟩, (num2_iff c d (v % 100)).2 ⟨by omega, h2⟩]
    simp only [Option.map_some]
    congr 1; omega

theorem parse4d_eq {s : Bytes} {i : Nat} {a b c d : UInt8} (ha : s[i]? = some a) (hb : s[i + 1]? = some b)
    (hc : s[i + 2]? = some c) (hd : s[i + 2 + 1]? = some d) : parse4d s i = .ok (num4 a b c d) := by
  unfold parse4d num4
  rw [parse2d_eq ha hb, parse2d_eq hc hd]
  simp only [Out.bind]
  cases num2 a b <;> rfl

/-- `check` on a defined number. -/
theorem check_ok {α : Type} (o : Option Nat) (p : Nat → Bool) (k : Nat → Out (Option α)) :
    check (.ok o) p k = match o with | none => .ok none | some v => if p v then k v else .ok none := rfl

theorem leap_eq (y : Nat) : leapYear y = leap y := by
  rw [Bool.eq_iff_iff, leap_iff]
  unfold leapYear
  simp only [Bool.and_eq_true, Bool.or_eq_true, beq_iff_eq, bne_iff_ne]

theorem dayFits_eq {y m d : Nat} (h1 : 1 ≤ m) (h2 : m ≤ 12) (hd : d ≤ 31) :
    dayFits y m d = .ok (decide (d ≤ monthLen y m)) := by
  have hm : monthDays y m = .ok (monthLen y m) := by
    unfold monthDays
    rw [leap_eq]
    rcases month_cases h1 h2 with rfl | rfl | rfl | rfl | rfl | rfl | rfl | rfl | rfl | rfl | rfl | rfl <;>
      by_cases hl : leap y = true <;> simp [hl, daysTable, Out.get, Out.bind, monthLen]
  unfold dayFits
  split
  · rw [hm]; rfl
  · rename_i h
    have : d ≤ monthLen y m := by
      unfold monthLen
      split
      · split <;> omega
      · split <;> omega
    rw [decide_eq_true this]

/-- The loop over the fraction: the digits, and a rest that does not begin with a
digit. -/
theorem fracLoop_spec : ∀ (l : Bytes) (n k : Nat),
    ∃ j v r, v < 10 ^ j ∧ l = pad j v ++ r ∧ (∀ c r', r = c :: r' → c - 48 > 9) ∧
      (fracLoop l n k).2 = (k + j, r) ∧ (n * 10 ^ j + v < u32 → (fracLoop l n k).1 = n * 10 ^ j + v)
  | [], n, k => ⟨0, 0, [], by decide, rfl, fun _ _ h => (by cases h), rfl, fun _ => by simp [fracLoop]⟩
  | c :: l, n, k => by
    rw [fracLoop]
    by_cases h : c - 48 > 9
    · rw [if_pos h]
      exact ⟨0, 0, c :: l, by decide, rfl, fun c' r' e => by rw [← (List.cons.inj e).1]; exact h, rfl, fun _ => by simp⟩
    · rw [if_neg h]
      obtain ⟨h1, h2⟩ := digit_some h
      generalize (c - 48).toNat = x at *
      obtain ⟨j, v, r, a1, a2, a3, a4, a5⟩ := fracLoop_spec l ((n * 10 + x) % u32) (k + 1)
      have hpow : 10 ^ (j + 1) = 10 * 10 ^ j := by rw [Nat.pow_succ]; omega
      have hxv : x * 10 ^ j + v < 10 ^ (j + 1) := by
        rw [hpow]
        have : x * 10 ^ j ≤ 9 * 10 ^ j := Nat.mul_le_mul_right _ (by omega)
        omega
      refine ⟨j + 1, x * 10 ^ j + v, r, hxv, ?_, a3, ?_, ?_⟩
      · have hp : ∀ (j v x : Nat), v < 10 ^ j → x < 10 → pad (j + 1) (x * 10 ^ j + v) = UInt8.ofNat (48 + x) :: pad j v := by
          intro j
          induction j with
          | zero => intro v x hv hx; simp [pad] at hv ⊢; subst hv; congr 1; congr 1; omega
          | succ j ih =>
            intro v x hv hx
            rw [pad]
            have hpow : 10 ^ (j + 1) = 10 * 10 ^ j := by rw [Nat.pow_succ]; omega
            have e1 : (x * 10 ^ (j + 1) + v) / 10 = x * 10 ^ j + v / 10 := by
              rw [hpow, show x * (10 * 10 ^ j) = 10 * (x * 10 ^ j) by rw [Nat.mul_left_comm]]
              omega
            have e2 : (x * 10 ^ (j + 1) + v) % 10 = v % 10 := by
              rw [hpow, show x * (10 * 10 ^ j) = 10 * (x * 10 ^ j) by rw [Nat.mul_left_comm]]
              omega
            rw [e1, e2, ih (v / 10) x (by omega) hx]
            rfl
        rw [hp j v x a1 h1, List.cons_append, ← a2, ← h2]
      · rw [a4]; congr 1; omega
      · intro hb
        have e : n * 10 ^ (j + 1) + (x * 10 ^ j + v) = (n * 10 + x) * 10 ^ j + v := by
          rw [hpow, Nat.add_mul, Nat.mul_assoc]; omega
        have hpos : 0 < 10 ^ j := Nat.pow_pos (by decide)
        have hsm : n * 10 + x < u32 := by
          rw [e] at hb
          have : n * 10 + x ≤ (n * 10 + x) * 10 ^ j := Nat.le_mul_of_pos_right _ hpos
          omega
        rw [Nat.mod_eq_of_lt hsm] at a5 ⊢
        rw [e] at hb ⊢
        exact a5 hb

theorem pad_inj_rest : ∀ (l : Bytes) (j v j' v' : Nat) (r r' : Bytes), v < 10 ^ j → v' < 10 ^ j' →
    l = pad j v ++ r → l = pad j' v' ++ r' → (∀ c t, r = c :: t → c - 48 > 9) → (∀ c t, r' = c :: t → c - 48 > 9) →
    j = j' ∧ v = v' ∧ r = r' := by
  -- every character of a padded number is a digit
  have hdig : ∀ (j v : Nat) (c : UInt8), c ∈ pad j v → ¬ (c - 48 > 9) := by
    intro j
    induction j with
    | zero => intro v c h; cases h
    | succ j ih =>
      intro v c h
      rw [pad] at h
      rcases List.mem_append.1 h with h | h
      · exact ih _ c h
      · rw [List.mem_singleton] at h; rw [h]; exact (digit_of (v % 10) (by omega)).1
  have hlen : ∀ (j v : Nat) (r : Bytes), (∀ c t, r = c :: t → c - 48 > 9) →
      ((pad j v ++ r).takeWhile fun c => decide (¬ (c - 48 > 9))) = pad j v := by
    intro j v r hr
    rw [List.takeWhile_append_of_pos (by intro c hc; exact decide_eq_true (hdig j v c hc))]
    cases r with
    | nil => simp
    | cons c t => rw [List.takeWhile_cons, if_neg (by simpa using hr c t rfl), List.append_nil]
  have hinj : ∀ (j v v' : Nat), v < 10 ^ j → v' < 10 ^ j → pad j v = pad j v' → v = v' := by
    intro j
    induction j with
    | zero => intro v v' h h' _; simp at h h'; omega
    | succ j ih =>
      intro v v' h h' e
      have hpow : 10 ^ (j + 1) = 10 * 10 ^ j := by rw [Nat.pow_succ]; omega
      rw [pad, pad] at e
      have ⟨e1, e2⟩ := List.append_inj e (by rw [pad_length, pad_length])
      have := ih (v / 10) (v' / 10) (by omega) (by omega) e1
      have e3 := (List.cons.inj e2).1
      have f1 := (digit_of (v % 10) (by omega)).2
      have f2 := (digit_of (v' % 10) (by omega)).2
      rw [e3] at f1
      omega
  intro l j v j' v' r r' hv hv' e e' hr hr'
  have t1 := hlen j v r hr
  have t2 := hlen j' v' r' hr'
  rw [← e] at t1
  rw [← e', t1] at t2
  have hj : j = j' := by have := congrArg List.length t2; rwa [pad_length, pad_length] at this
  subst hj
  rw [e, t2] at e'
  exact ⟨rfl, hinj j v v' hv hv' t2, List.append_cancel_left e'⟩

theorem some_iff_date {s : Bytes} {c0 c1 c2 c3 c5 c6 c8 c9 : UInt8} (h0 : s[0]? = some c0) (h1 : s[1]? = some c1)
    (h2 : s[2]? = some c2) (h3 : s[3]? = some c3) (h5 : s[5]? = some c5) (h6 : s[6]? = some c6)
    (h8 : s[8]? = some c8) (h9 : s[9]? = some c9) :
    ∃ r, parseDate s = .ok r ∧ ∀ y' m d, r = some (y', m, d) ↔ ∃ y, Date y m d ∧ y ≤ 9999 ∧
      y' = (if m < 3 then y - 1 else y) ∧ [c0, c1, c2, c3] = pad 4 y ∧ [c5, c6] = pad 2 m ∧ [c8, c9] = pad 2 d := by
  unfold parseDate
  rw [parse4d_eq h0 h1 h2 h3, parse2d_eq h5 h6, parse2d_eq h8 h9]
  simp only [check_ok]
  have no : ∀ {α : Type} {P : Prop} {x : α}, ¬ P → ((none : Option α) = some x ↔ P) := by
    intro α P x h; exact ⟨fun e => (by cases e), fun p => absurd p h⟩
  cases e4 : num4 c0 c1 c2 c3 with
  | none =>
    refine ⟨none, rfl, fun y' m d => no ?_⟩
    rintro ⟨y, hd, hy, _, p, _⟩
    rw [(num4_iff ..).2 ⟨hy, p⟩] at e4; cases e4
  | some y =>
    obtain ⟨y9, yp⟩ := (num4_iff ..).1 e4
    have yu : ∀ y2, y2 ≤ 9999 → [c0, c1, c2, c3] = pad 4 y2 → y2 = y := by
      intro y2 h p
      have := (num4_iff c0 c1 c2 c3 y2).2 ⟨h, p⟩
      rw [e4] at this; exact (Option.some.inj this).symm
    dsimp only
    by_cases hy1 : 1 ≤ y
    · rw [if_pos (decide_eq_true hy1)]
      cases e5 : num2 c5 c6 with
      | none =>
        refine ⟨none, rfl, fun y' m d => no ?_⟩
        rintro ⟨y2, hd, hy, _, _, p, _⟩
        rw [(num2_iff ..).2 ⟨by have := hd.m12; omega, p⟩] at e5; cases e5
      | some m =>
        obtain ⟨m9, mp⟩ := (num2_iff ..).1 e5
        have mu : ∀ m2, m2 ≤ 12 → [c5, c6] = pad 2 m2 → m2 = m := by
          intro m2 h p
          have := (num2_iff c5 c6 m2).2 ⟨by omega, p⟩
          rw [e5] at this; exact (Option.some.inj this).symm
        dsimp only
        by_cases hm : 1 ≤ m ∧ m ≤ 12
        · rw [if_pos (decide_eq_true hm)]
          cases e8 : num2 c8 c9 with
          | none =>
            refine ⟨none, rfl, fun y' m d => no ?_⟩
            rintro ⟨y2, hd, hy, _, _, _, p⟩
            rw [(num2_iff ..).2 ⟨by have := hd.dl; have := monthLen_le y2 m; omega, p⟩] at e8; cases e8
          | some d =>
            obtain ⟨d9, dp⟩ := (num2_iff ..).1 e8
            have du : ∀ d2, d2 ≤ 31 → [c8, c9] = pad 2 d2 → d2 = d := by
              intro d2 h p
              have := (num2_iff c8 c9 d2).2 ⟨by omega, p⟩
              rw [e8] at this; exact (Option.some.inj this).symm
            dsimp only
            by_cases hd : 1 ≤ d ∧ d ≤ 31
            · rw [if_pos (decide_eq_true hd), dayFits_eq hm.1 hm.2 hd.2]
              simp only [Out.bind]
              refine ⟨_, rfl, fun y' m2 d2 => ?_⟩
              by_cases hf : d ≤ monthLen y m
              · rw [if_pos (decide_eq_true hf)]
                constructor
                · intro e
                  have e := Option.some.inj e
                  injection e with e1 e2
                  injection e2 with e2 e3
                  subst e2 e3
                  exact ⟨y, ⟨hy1, hm.1, hm.2, hd.1, hf⟩, y9, e1.symm, yp, mp, dp⟩
                · rintro ⟨y2, hd2, hy2, ey, p1, p2, p3⟩
                  have a1 := yu y2 hy2 p1
                  have a2 := mu m2 hd2.m12 p2
                  have a3 := du d2 (Nat.le_trans hd2.dl (monthLen_le _ _)) p3
                  subst a1 a2 a3
                  rw [ey]
              · rw [if_neg (by simpa using hf)]
                apply no
                rintro ⟨y2, hd2, hy2, ey, p1, p2, p3⟩
                have a1 := yu y2 hy2 p1
                have a2 := mu m2 hd2.m12 p2
                have a3 := du d2 (Nat.le_trans hd2.dl (monthLen_le _ _)) p3
                subst a1 a2 a3
                exact hf hd2.dl
            · rw [if_neg (by simpa using hd)]
              refine ⟨none, rfl, fun y' m2 d2 => no ?_⟩
              rintro ⟨y2, hd2, hy2, ey, p1, p2, p3⟩
              have a3 := du d2 (Nat.le_trans hd2.dl (monthLen_le _ _)) p3
              subst a3
              exact hd ⟨hd2.d1, Nat.le_trans hd2.dl (monthLen_le _ _)⟩
        · rw [if_neg (by simpa using hm)]
          refine ⟨none, rfl, fun y' m2 d2 => no ?_⟩
          rintro ⟨y2, hd2, hy2, ey, p1, p2, p3⟩
          have a2 := mu m2 hd2.m12 p2
          subst a2
          exact hm ⟨hd2.m1, hd2.m12⟩
    · rw [if_neg (by simpa using hy1)]
      refine ⟨none, rfl, fun y' m2 d2 => no ?_⟩
      rintro ⟨y2, hd2, hy2, ey, p1, p2, p3⟩
      have a1 := yu y2 hy2 p1
      subst a1
      exact hy1 hd2.y1

/-- A two digit number with a bound. -/
theorem check2 {α : Type} (a b : UInt8) (n : Nat) (hn : n < 100) (k : Nat → Out (Option α))
    (hk : ∀ v, v ≤ n → [a, b] = pad 2 v → ∃ r, k v = .ok r) :
    ∃ r, check (.ok (num2 a b)) (fun v => decide (v ≤ n)) k = .ok r ∧
      ∀ x, r = some x ↔ ∃ v, v ≤ n ∧ [a, b] = pad 2 v ∧ k v = .ok (some x) := by
  rw [check_ok]
  cases e : num2 a b with
  | none =>
    refine ⟨none, rfl, fun x => ⟨fun h => (by cases h), ?_⟩⟩
    rintro ⟨v, h1, h2, h3⟩
    rw [(num2_iff a b v).2 ⟨by omega, h2⟩] at e; cases e
  | some v =>
    obtain ⟨v9, vp⟩ := (num2_iff ..).1 e
    have vu : ∀ v2, v2 ≤ n → [a, b] = pad 2 v2 → v2 = v := by
      intro v2 h p
      have := (num2_iff a b v2).2 ⟨by omega, p⟩
      rw [e] at this; exact (Option.some.inj this).symm
    dsimp only
    by_cases hv : v ≤ n
    · rw [if_pos (decide_eq_true hv)]
      obtain ⟨r, hr⟩ := hk v hv vp
      refine ⟨r, hr, fun x => ⟨fun h => ⟨v, hv, vp, by rw [hr, h]⟩, ?_⟩⟩
      rintro ⟨v2, h1, h2, h3⟩
      rw [vu v2 h1 h2, hr] at h3
      exact Out.ok.inj h3
    · rw [if_neg (by simpa using hv)]
      refine ⟨none, rfl, fun x => ⟨fun h => (by cases h), ?_⟩⟩
      rintro ⟨v2, h1, h2, h3⟩
      rw [vu v2 h1 h2] at h1
      exact absurd h1 hv

theorem some_iff_time {s : Bytes} {a b c d e f : UInt8} (h0 : s[11]? = some a) (h1 : s[12]? = some b)
    (h2 : s[14]? = some c) (h3 : s[15]? = some d) (h5 : s[17]? = some e) (h6 : s[18]? = some f) :
    ∃ r, parseTime s = .ok r ∧ ∀ h mi se, r = some (h, mi, se) ↔
      h ≤ 23 ∧ mi ≤ 59 ∧ se ≤ 59 ∧ [a, b] = pad 2 h ∧ [c, d] = pad 2 mi ∧ [e, f] = pad 2 se := by
  unfold parseTime
  rw [parse2d_eq h0 h1, parse2d_eq h2 h3, parse2d_eq h5 h6]
  have k3 : ∀ h m, ∃ r, check (.ok (num2 e f)) (fun v => decide (v ≤ 59))
      (fun x => (.ok (some (h, m, x)) : Out (Option (Nat × Nat × Nat)))) = .ok r ∧ _ :=
    fun h m => check2 e f 59 (by omega) _ (fun v _ _ => ⟨_, rfl⟩)
  have k2 : ∀ h, ∃ r, check (.ok (num2 c d)) (fun v => decide (v ≤ 59)) (fun m =>
      check (.ok (num2 e f)) (fun v => decide (v ≤ 59))
      (fun x => (.ok (some (h, m, x)) : Out (Option (Nat × Nat × Nat))))) = .ok r ∧ _ :=
    fun h => check2 c d 59 (by omega) _ (fun v _ _ => by obtain ⟨r, hr, _⟩ := k3 h v; exact ⟨r, hr⟩)
  obtain ⟨r, hr, hx⟩ := check2 a b 23 (by omega) _ (fun v _ _ => by obtain ⟨r, hr, _⟩ := k2 v; exact ⟨r, hr⟩)
  refine ⟨r, hr, fun h mi se => ?_⟩
  rw [hx]
  constructor
  · rintro ⟨v, p1, p2, p3⟩
    obtain ⟨r2, q1, q2⟩ := k2 v
    rw [q1] at p3
    obtain ⟨v2, s1, s2, s3⟩ := (q2 _).1 (Out.ok.inj p3)
    obtain ⟨r3, t1, t2⟩ := k3 v v2
    rw [t1] at s3
    obtain ⟨v3, u1, u2, u3⟩ := (t2 _).1 (Out.ok.inj s3)
    have u3 := Option.some.inj (Out.ok.inj u3)
    injection u3 with e1 e2
    injection e2 with e2 e3
    subst e1 e2 e3
    exact ⟨p1, s1, u1, p2, s2, u2⟩
  · rintro ⟨p1, s1, u1, p2, s2, u2⟩
    refine ⟨h, p1, p2, ?_⟩
    obtain ⟨r2, q1, q2⟩ := k2 h
    obtain ⟨r3, t1, t2⟩ := k3 h mi
    rw [q1, (q2 (h, mi, se)).2 ⟨mi, s1, s2, ?_⟩]
    rw [t1, (t2 (h, mi, se)).2 ⟨se, u1, u2, rfl⟩]

/-- Where the fraction ends. -/
def Ends (f : Option (Nat × Nat)) (c : UInt8) : Prop :=
  match f with
  | none => c ≠ 46
  | some _ => c - 48 > 9

/-- Fractions of 1 to 9 digits. -/
def FracOk (f : Option (Nat × Nat)) : Prop := ∀ k v, f = some (k, v) → 1 ≤ k ∧ k ≤ 9 ∧ v < 10 ^ k

theorem pow_split {k : Nat} (h : k ≤ 9) : 10 ^ k * 10 ^ (9 - k) = 1000000000 := by
  rw [← Nat.pow_add]
  have : k + (9 - k) = 9 := by omega
  rw [this]

theorem frac_lt {k v : Nat} (h : k ≤ 9) (hv : v < 10 ^ k) : v * 10 ^ (9 - k) < 1000000000 := by
  have := pow_split h
  have hp : 0 < 10 ^ (9 - k) := Nat.pow_pos (by decide)
  have := Nat.mul_lt_mul_of_pos_right hv hp
  omega

theorem some_iff_frac (ch : UInt8) (l : Bytes) :
    ∃ r, parseFrac (ch :: l) = .ok r ∧ ∀ n c l', r = some (n, c, l') ↔
      ∃ f, FracOk f ∧ ch :: l = Spec.fracText f ++ c :: l' ∧ n = fracNsec f ∧ Ends f c := by
  unfold parseFrac
  dsimp only
  by_cases h46 : ch = 46
  · rw [if_pos h46]
    obtain ⟨j, v, r, a1, a2, a3, a4, a5⟩ := fracLoop_spec l 0 0
    rw [a4, Nat.zero_add]
    have nofrac : ∀ c l' n, (∃ f, FracOk f ∧ ch :: l = Spec.fracText f ++ c :: l' ∧ n = fracNsec f ∧ Ends f c) →
        1 ≤ j ∧ j ≤ 9 ∧ r = c :: l' ∧ n = v * 10 ^ (9 - j) ∧ c - 48 > 9 := by
      rintro c l' n ⟨f, f1, f2, f3, f4⟩
      cases f with
      | none =>
        have := (List.cons.inj f2).1
        exact absurd (this ▸ h46) f4
      | some p =>
        obtain ⟨k, w⟩ := p
        obtain ⟨g1, g2, g3⟩ := f1 k w rfl
        have f2 : l = pad k w ++ c :: l' := (List.cons.inj f2).2
        have f4 : c - 48 > 9 := f4
        have ⟨e1, e2, e3⟩ := pad_inj_rest l j v k w r (c :: l') a1 g3 a2 f2 a3
          (fun c' t e => by rw [← (List.cons.inj e).1]; exact f4)
        subst e1 e2
        exact ⟨g1, g2, e3, f3, f4⟩
    by_cases hj : j < 1 ∨ j > 9
    · rw [if_pos hj]
      refine ⟨none, rfl, fun n c l' => ⟨fun h => (by cases h), fun h => ?_⟩⟩
      have := nofrac c l' n h; omega
    · rw [if_neg hj]
      cases hr : r with
      | nil =>
        refine ⟨none, rfl, fun n c l' => ⟨fun h => (by cases h), fun h => ?_⟩⟩
        obtain ⟨_, _, e, _⟩ := nofrac c l' n h
        rw [hr] at e; cases e
      | cons c0 l0 =>
        have hv : (fracLoop l 0 0).1 = v := by
          have hb : v < u32 := by
            have : 10 ^ j ≤ 10 ^ 9 := Nat.pow_le_pow_right (by decide) (by omega)
            unfold u32; omega
          have := a5 (by rw [Nat.zero_mul, Nat.zero_add]; exact hb)
          rw [this, Nat.zero_mul, Nat.zero_add]
        dsimp only
        rw [hv]
        have hlt := frac_lt (by omega : j ≤ 9) a1
        rw [Nat.mod_eq_of_lt (by unfold u32; omega)]
        refine ⟨_, rfl, fun n c l' => ⟨fun h => ?_, fun h => ?_⟩⟩
        · have h := Option.some.inj h
          injection h with e1 e2
          injection e2 with e2 e3
          subst e1 e2 e3
          refine ⟨some (j, v), ?_, ?_, rfl, a3 c0 l0 hr⟩
          · intro k w e
            have e := Option.some.inj e
            injection e with e1 e2
            subst e1 e2
            exact ⟨by omega, by omega, a1⟩
          · show ch :: l = 46 :: pad j v ++ c0 :: l0
            rw [h46, List.cons_append, ← hr, ← a2]
        · obtain ⟨_, _, e, e2, _⟩ := nofrac c l' n h
          rw [hr] at e
          rw [e2, (List.cons.inj e).1, (List.cons.inj e).2]
  · rw [if_neg h46]
    refine ⟨_, rfl, fun n c l' => ⟨fun h => ?_, ?_⟩⟩
    · have h := Option.some.inj h
      injection h with e1 e2
      injection e2 with e2 e3
      subst e1 e2 e3
      exact ⟨none, fun k v e => (by cases e), rfl, rfl, h46⟩
    · rintro ⟨f, f1, f2, f3, f4⟩
      cases f with
      | none =>
        rw [f3]
        have := List.cons.inj f2
        rw [this.1, this.2]; rfl
      | some p => exact absurd (List.cons.inj f2).1 h46

theorem some_iff_zone (ch : UInt8) (l : Bytes) :
    ∃ r, parseZone ch l = .ok r ∧ ∀ o, r = some o ↔ ∃ z : Zone, z.Ok ∧ ch :: l = z.text ∧ o = z.minutes := by
  unfold parseZone
  by_cases hz : ch = 90 ∨ ch = 122
  · rw [if_pos hz]
    refine ⟨_, rfl, fun o => ⟨fun h => ?_, ?_⟩⟩
    · by_cases hl : l = []
      · rw [if_pos hl] at h
        exact ⟨.utc ch, hz, by rw [hl]; rfl, (Option.some.inj h).symm⟩
      · rw [if_neg hl] at h; cases h
    · rintro ⟨z, z1, z2, z3⟩
      cases z with
      | utc c => rw [if_pos (List.cons.inj z2).2, z3]; rfl
      | off neg h m =>
        have := (List.cons.inj z2).1
        rw [this] at hz
        cases neg <;> simp at hz
  · rw [if_neg hz]
    have nou : ∀ o, (∃ z : Zone, z.Ok ∧ ch :: l = z.text ∧ o = z.minutes) →
        (ch = 43 ∨ ch = 45) ∧ ∃ h m, h ≤ 23 ∧ m ≤ 59 ∧ l = pad 2 h ++ 58 :: pad 2 m ∧
          o = (if ch = 45 then -((h * 60 + m : Nat) : Int) else ((h * 60 + m : Nat) : Int)) := by
      rintro o ⟨z, z1, z2, z3⟩
      cases z with
      | utc c =>
        have := (List.cons.inj z2).1
        exact absurd z1 (this ▸ hz)
      | off neg h m =>
        have e1 := (List.cons.inj z2).1
        have e2 := (List.cons.inj z2).2
        refine ⟨by rw [e1]; cases neg <;> simp, h, m, z1.1, z1.2, e2, ?_⟩
        rw [z3, e1]; cases neg <;> simp [Zone.minutes]
    by_cases hc : l.length < 5 ∨ ¬ (ch = 43 ∨ ch = 45)
    · rw [if_pos hc]
      refine ⟨none, rfl, fun o => ⟨fun h => (by cases h), fun h => ?_⟩⟩
      obtain ⟨p1, h, m, p2, p3, p4, p5⟩ := nou o h
      rcases hc with hc | hc
      · rw [p4, List.length_append, List.length_cons, pad_length, pad_length] at hc; omega
      · exact absurd p1 hc
    · rw [if_neg hc]
      have hc1 : ¬ l.length < 5 := fun h => hc (.inl h)
      have hc2 : ch = 43 ∨ ch = 45 := Classical.byContradiction fun h => hc (.inr h)
      obtain ⟨a, b, c, d, e, l', rfl⟩ : ∃ a b c d e l', l = a :: b :: c :: d :: e :: l' := by
        clear nou hc
        match l, hc1 with
        | [], h => exact absurd (by simp) h
        | [_], h => exact absurd (by simp) h
        | [_, _], h => exact absurd (by simp) h
        | [_, _, _], h => exact absurd (by simp) h
        | [_, _, _, _], h => exact absurd (by simp) h
        | a :: b :: c :: d :: e :: l', _ => exact ⟨a, b, c, d, e, l', rfl⟩
      · unfold parseOffset
        rw [parse2d_eq (s := a :: b :: c :: d :: e :: l') (i := 0) rfl rfl,
          parse2d_eq (s := a :: b :: c :: d :: e :: l') (i := 3) rfl rfl]
        have hg : Out.get (a :: b :: c :: d :: e :: l') 2 = .ok c := rfl
        rw [hg]
        simp only [Out.bind]
        have hlen : (a :: b :: c :: d :: e :: l').length = 5 ↔ l' = [] := by
          simp only [List.length_cons]
          constructor
          · intro h; exact List.length_eq_zero_iff.1 (by omega)
          · intro h; rw [h]; rfl
        have inv : ∀ (h m : Nat), a :: b :: c :: d :: e :: l' = pad 2 h ++ 58 :: pad 2 m →
            [a, b] = pad 2 h ∧ c = 58 ∧ [d, e] = pad 2 m ∧ l' = [] := by
          intro h m q
          rw [pad2, pad2] at q ⊢
          simp only [List.cons_append, List.nil_append, List.cons.injEq] at q
          obtain ⟨q1, q2, q3, q4, q5, q6⟩ := q
          exact ⟨by rw [q1, q2], q3, by rw [q4, q5], q6⟩
        by_cases h58 : c = 58
        · subst h58
          simp only [bne_self_eq_false, Bool.false_eq_true, if_false]
          have k2 : ∀ h, ∃ r, check (.ok (num2 d e)) (fun v => decide (v ≤ 59))
              (fun m => (.ok (some (if (ch == 45) = true then -((h * 60 + m : Nat) : Int) else ((h * 60 + m : Nat) : Int))) : Out (Option Int))) = .ok r ∧ _ :=
            fun h => check2 d e 59 (by omega) _ (fun v _ _ => ⟨_, rfl⟩)
          obtain ⟨r, hr, hx⟩ := check2 a b 23 (by omega) _ (fun v _ _ => by obtain ⟨r, hr, _⟩ := k2 v; exact ⟨r, hr⟩)
          rw [hr]
          dsimp only
          refine ⟨_, rfl, fun o => ⟨fun h => ?_, fun h => ?_⟩⟩
          · split at h
            · rename_i hl5
              obtain ⟨v, p1, p2, p3⟩ := (hx o).1 h
              obtain ⟨r2, q1, q2⟩ := k2 v
              rw [q1] at p3
              obtain ⟨w, s1, s2, s3⟩ := (q2 _).1 (Out.ok.inj p3)
              have s3 := Option.some.inj (Out.ok.inj s3)
              refine ⟨.off (ch == 45) v w, ⟨p1, s1⟩, ?_, ?_⟩
              · rw [hlen.1 hl5]
                show _ = (if (ch == 45) = true then 45 else 43) :: (pad 2 v ++ 58 :: pad 2 w)
                rw [← p2, ← s2]
                rcases hc2 with rfl | rfl <;> rfl
              · rw [← s3]; rfl
            · cases h
          · obtain ⟨_, h, m, p2, p3, p4, p5⟩ := nou o h
            obtain ⟨i1, i2, i3, i4⟩ := inv h m p4
            rw [if_pos (hlen.2 i4)]
            apply (hx o).2
            refine ⟨h, p2, i1, ?_⟩
            obtain ⟨r2, q1, q2⟩ := k2 h
            rw [q1, (q2 o).2 ⟨m, p3, i3, ?_⟩]
            rw [p5]
            rcases hc2 with rfl | rfl <;> rfl
        · rw [if_pos (by simpa using h58)]
          refine ⟨_, rfl, fun o => ⟨fun h => (by split at h <;> cases h), fun h => ?_⟩⟩
          obtain ⟨_, h, m, p2, p3, p4, p5⟩ := nou o h
          exact absurd (inv h m p4).2.1 h58

end Verif.Rfc3339
