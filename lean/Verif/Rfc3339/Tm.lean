import Verif.Rfc3339.Text
import Verif.Rep.Model
/-! C60: conversions of certificate times. -/
namespace Verif.Rfc3339
open Spec
open Verif.Rep (b)

/-! ### Broken-down times -/

theorem tmOf_spec (y m d v : Nat) (hd : Date y m d) :
    tmOf (dayNumber y m d) v (marchYear y m, (if m < 3 then m + 12 else m), marchDay m d) =
    .ok (some ⟨(v % 60 : Nat), (v / 60 % 60 : Nat), (v / 3600 : Nat), d, (m : Int) - 1, (y : Int) - 1900,
        ((dayNumber y m d : Int) - dayNumber 1970 1 1 + 4) % 7, (daysBeforeMonth y m + d : Nat) - (1 : Int)⟩) := by
  have hm1 := hd.m1
  have hm12 := hd.m12
  have hd1 := hd.d1
  have hml := hd.dl
  have hdm : d ≤ 31 := Nat.le_trans hml (monthLen_le y m)
  have hmm : (if (if m < 3 then m + 12 else m) > 12 then (if m < 3 then m + 12 else m) - 12 else (if m < 3 then m + 12 else m)) = m := by
    by_cases h3 : m < 3
    · rw [if_pos h3, if_pos (by omega)]; omega
    · rw [if_neg h3, if_neg (by omega)]
  have hyy : (if (if m < 3 then m + 12 else m) > 12 then marchYear y m + 1 else marchYear y m) = y := by
    unfold marchYear
    by_cases h3 : m < 3
    · rw [if_pos h3, if_pos (by omega), if_pos h3]; have := hd.y1; omega
    · rw [if_neg h3, if_neg (by omega), if_neg h3]
  have hyd : yearDay (marchYear y m) (if m < 3 then m + 12 else m) (marchDay m d) = daysBeforeMonth y m + d := by
    unfold yearDay marchYear
    have hdo : marchDay m d = dayOffset.getD m 0 + d := rfl
    have hdbm := dbm_closed y m hm1 hm12
    rw [hdo]
    by_cases h3 : m < 3
    · rw [if_pos h3, if_pos (by omega)]
      have : m = 1 ∨ m = 2 := by omega
      rw [hdbm, if_pos h3]
      rcases this with rfl | rfl
      · show (306 + d + u32 - 306) % u32 = 0 + 0 + d
        unfold u32; omega
      · show (337 + d + u32 - 306) % u32 = 0 + 31 + d
        unfold u32; omega
    · rw [if_neg h3, if_neg (by omega), if_neg h3]
      have hlp : (y % 4 == 0 && (y % 100 != 0 || y % 400 == 0)) = leap y := leap_eq y
      rw [hlp, hdbm, if_neg h3]
      have : m = 3 ∨ m = 4 ∨ m = 5 ∨ m = 6 ∨ m = 7 ∨ m = 8 ∨ m = 9 ∨ m = 10 ∨ m = 11 ∨ m = 12 := by omega
      generalize (if leap y = true then 1 else 0) = L
      rcases this with rfl | rfl | rfl | rfl | rfl | rfl | rfl | rfl | rfl | rfl <;> simp [dayOffset] <;> omega
  have hw : ((dayNumber y m d % 7 : Nat) : Int) = ((dayNumber y m d : Int) - dayNumber 1970 1 1 + 4) % 7 := by
    rw [epoch_day]
    generalize dayNumber y m d = n at *
    omega
  have hse : v / 60 / 60 = v / 3600 := by omega
  have hmd : ((marchDay m d : Nat) : Int) - (dayOffset.getD m 0 : Nat) = d := by
    have hdo : marchDay m d = dayOffset.getD m 0 + d := rfl
    rw [hdo]; omega
  unfold tmOf
  dsimp only
  rw [hmm, hyy, hyd, get_offset hm12, Out.bind, hw, hse, hmd]

/-- C60. The broken-down local time of a valid time stamp is the calendar date, day of
the week and day of the year of its instant; likewise the UTC time if it is in the
years 1 to 9999. -/
theorem toTm_spec (t : TS) (loc : Bool) (hv : valid t = .ok true)
    (hr : loc = false → -62135596800 ≤ t.sec ∧ t.sec ≤ 253402300799) :
    ∃ y m d h mi se, Date y m d ∧ y ≤ 9999 ∧ h ≤ 23 ∧ mi ≤ 59 ∧ se ≤ 59 ∧
      t.sec = instant y m d h mi se (if loc then t.offset else 0) ∧
      toTm t loc = .ok (some ⟨se, mi, h, d, (m : Int) - 1, (y : Int) - 1900,
        ((dayNumber y m d : Int) - dayNumber 1970 1 1 + 4) % 7, (daysBeforeMonth y m + d : Nat) - (1 : Int)⟩) := by
  have ⟨v1, v2, v3, v4, v5, v6⟩ := (valid_iff t).1 hv
  have hs : ∃ s, s = t.sec + (if loc then t.offset * 60 else 0) ∧ -62135596800 ≤ s ∧ s ≤ 253402300799 := by
    cases loc with
    | true => exact ⟨_, rfl, by simpa using v1, by simpa using v2⟩
    | false => exact ⟨_, rfl, by have := (hr rfl).1; simpa using this, by have := (hr rfl).2; simpa using this⟩
  obtain ⟨s, hs, s1, s2⟩ := hs
  obtain ⟨y, m, d, v, hd, hy, hvv, he, hn⟩ := civil s s1 s2
  have ⟨g1, g2, g3, g4, g5⟩ := march_day y m d hd
  have hY : marchYear y m ≤ 9999 := by unfold marchYear; split <;> omega
  have hp := rdnParts_spec _ _ _ hY g2 g3 g4 g1
  refine ⟨y, m, d, v / 3600, v / 60 % 60, v % 60, hd, hy, by omega, by omega, by omega, ?_, ?_⟩
  · unfold instant
    rw [epoch_day]
    have : v / 3600 * 3600 + v / 60 % 60 * 60 + v % 60 = v := by omega
    rw [this]
    generalize dayNumber y m d = n at *
    cases loc <;> simp at hs ⊢ <;> omega
  · have hsec : ((t.sec + 62135683200 + (if loc then t.offset * 60 else 0)) % 18446744073709551616).toNat =
        dayNumber y m d * 86400 + v := by
      have : t.sec + 62135683200 + (if loc then t.offset * 60 else 0) = s + 62135683200 := by rw [hs]; omega
      rw [this, he]
      generalize dayNumber y m d = n at *
      omega
    have hrdn : (dayNumber y m d * 86400 + v) / 86400 % u32 = dayNumber y m d := by
      unfold u32
      generalize dayNumber y m d = n at *
      omega
    have hsod : (dayNumber y m d * 86400 + v) % 86400 = v := by
      generalize dayNumber y m d = n at *
      omega
    have hx : toTm t loc = tmOf (dayNumber y m d) v (rdnParts (dayNumber y m d)) := by
      unfold toTm
      rw [hv, Out.bind]
      dsimp only
      rw [if_neg (by decide), hsec, hrdn, hsod]
    rw [hx, hp, g5]
    exact tmOf_spec y m d v hd

/-- The day of a date from 1970 on, as `oc_certs_time_to_unix_timestamp` counts it. -/
theorem unix_days (y m d : Nat) (h : Date y m d) (hy : 1970 ≤ y) :
    ((y : Int) - 1970) * 365 + daysOffset.getD (m - 1) 0 + ((y : Int) - 1968) / 4 - ((y : Int) - 1900) / 100 +
      ((y : Int) - 1600) / 400 - (if leap y = true ∧ m < 3 then 1 else 0) + ((d : Int) - 1) =
      (dayNumber y m d : Int) - dayNumber 1970 1 1 := by
  have hm1 := h.m1
  have hm12 := h.m12
  rw [epoch_day]
  have hdbm := dbm_closed y m hm1 hm12
  unfold dayNumber
  have hdby := dby_closed' (y - 1) y (by omega)
  generalize daysBeforeYear y = Y at *
  have hoff : (daysBeforeMonth y m : Int) = daysOffset.getD (m - 1) 0 + (if leap y = true ∧ ¬ m < 3 then 1 else 0) := by
    rw [hdbm]
    rcases month_cases hm1 hm12 with rfl | rfl | rfl | rfl | rfl | rfl | rfl | rfl | rfl | rfl | rfl | rfl <;>
      by_cases hl : leap y = true <;> simp [hl, daysOffset]
  generalize daysBeforeMonth y m = M at *
  generalize daysOffset.getD (m - 1) 0 = O at *
  have hl := leap_iff y
  by_cases hle : leap y = true
  · have hl := hl.1 hle
    by_cases h3 : m < 3
    · rw [if_pos ⟨hle, h3⟩]
      rw [if_neg (fun h => h.2 h3)] at hoff
      omega
    · rw [if_neg (fun h => h3 h.2)]
      rw [if_pos ⟨hle, h3⟩] at hoff
      omega
  · have hl : ¬ (y % 4 = 0 ∧ (y % 100 ≠ 0 ∨ y % 400 = 0)) := fun h => hle (hl.2 h)
    rw [if_neg (fun h => hle h.1)]
    rw [if_neg (fun h => hle h.1)] at hoff
    omega

/-- C60. The validity times of a certificate that are in the years 1970 to 9999 are
converted to exactly the seconds since 1970. -/
theorem toUnix_partial (y m d h mi se : Nat) (hd : Date y m d) (h1 : 1970 ≤ y) (h2 : y ≤ 9999) (hh : h ≤ 23) (hm : mi ≤ 59)
    (hs : se ≤ 59) : toUnix ⟨y, m, d, h, mi, se⟩ = .ok (instant y m d h mi se 0).toNat := by
  have hm1 := hd.m1
  have hm12 := hd.m12
  have hday := unix_days y m d hd h1
  have t0 : ((m : Int) - 1).tdiv 12 = 0 := by rw [Int.tdiv_eq_ediv_of_nonneg (by omega)]; omega
  have t1 : ((m : Int) - 1).tmod 12 = (m : Int) - 1 := by rw [Int.tmod_eq_emod_of_nonneg (by omega)]; omega
  have t2 : ((y : Int) - 1968).tdiv 4 = ((y : Int) - 1968) / 4 := Int.tdiv_eq_ediv_of_nonneg (by omega)
  have t3 : ((y : Int) - 1900).tdiv 100 = ((y : Int) - 1900) / 100 := Int.tdiv_eq_ediv_of_nonneg (by omega)
  have t4 : ((y : Int) - 1600).tdiv 400 = ((y : Int) - 1600) / 400 := Int.tdiv_eq_ediv_of_nonneg (by omega)
  have t5 : (y : Int).tmod 4 = (y : Int) % 4 := Int.tmod_eq_emod_of_nonneg (by omega)
  have t6 : (y : Int).tmod 100 = (y : Int) % 100 := Int.tmod_eq_emod_of_nonneg (by omega)
  have t7 : (y : Int).tmod 400 = (y : Int) % 400 := Int.tmod_eq_emod_of_nonneg (by omega)
  have tn : ((m : Int) - 1).toNat = m - 1 := by omega
  have hg : Out.get daysOffset (m - 1) = .ok (daysOffset.getD (m - 1) 0) := by
    unfold Out.get
    have : m - 1 < daysOffset.length := by simp [daysOffset]; omega
    rw [List.getElem?_eq_getElem this, List.getD_eq_getElem?_getD, List.getElem?_eq_getElem this]
    rfl
  have hge : dayNumber 1970 1 1 ≤ dayNumber y m d := by
    rw [epoch_day]
    unfold dayNumber
    have := dby_mono h1
    have h70 := dby_closed' 1969 1970 rfl
    have := hd.d1
    omega
  have hle : dayNumber y m d ≤ 3652425 := by
    unfold dayNumber
    have := dby_mono (by omega : y ≤ 10000)
    rw [dby_10000] at this
    have hml := monthLen_le y m
    have := hd.dl
    have hdbm := dbm_closed y m hm1 hm12
    have : daysBeforeMonth y m ≤ 335 := by
      rcases month_cases hm1 hm12 with rfl | rfl | rfl | rfl | rfl | rfl | rfl | rfl | rfl | rfl | rfl | rfl <;>
        simp at hdbm <;> (try split at hdbm) <;> omega
    omega
  unfold toUnix instant
  dsimp only
  rw [t0, Int.add_zero, t1, if_neg (by omega), tn, hg, Out.bind]
  rw [t2, t3, t4, t5, t6, t7]
  have hc : ((y : Int) % 4 = 0 ∧ ((y : Int) % 100 ≠ 0 ∨ (y : Int) % 400 = 0) ∧ (m : Int) - 1 < 2) ↔ leap y = true ∧ m < 3 := by
    rw [leap_iff]; omega
  generalize hA : ((y : Int) - 1970) * 365 + daysOffset.getD (m - 1) 0 + ((y : Int) - 1968) / 4 - ((y : Int) - 1900) / 100 +
      ((y : Int) - 1600) / 400 = A at *
  generalize dayNumber 1970 1 1 = E at *
  generalize dayNumber y m d = N at *
  clear t0 t1 t2 t3 t4 t5 t6 t7 tn hg hA
  by_cases h' : leap y = true ∧ m < 3
  · rw [if_pos (hc.2 h')]
    rw [if_pos h'] at hday
    congr 1
    clear hc h'
    omega
  · rw [if_neg (fun x => h' (hc.1 x))]
    rw [if_neg h'] at hday
    congr 1
    clear hc h'
    omega

/-- C60. For years before 1968 the conversion is wrong: the division that counts the
leap years truncates towards zero (oc_certs.c:658), so 1965-03-01 is a day late; the
result is then converted to an unsigned number. -/
theorem toUnix_early_false :
    toUnix ⟨1965, 3, 1, 0, 0, 0⟩ = .ok (18446744073709551616 - 1766 * 86400) ∧
    instant 1965 3 1 0 0 0 0 = -1767 * 86400 := by
  refine ⟨by decide +kernel, ?_⟩
  unfold instant
  rw [epoch_day]
  have : dayNumber 1965 3 1 = 717396 := by
    have h := dby_closed' 1964 1965 rfl
    unfold dayNumber
    have h' : daysBeforeMonth 1965 3 = 59 := by rw [dbm_closed 1965 3 (by omega) (by omega)]; decide
    rw [h']
    generalize daysBeforeYear 1965 = x at *
    omega
  rw [this]
  decide

theorem decF_pad : ∀ (k f n : Nat), 10 ^ k ≤ n → n < 10 ^ (k + 1) → n < f → decF f n = pad (k + 1) n
  | _, 0, _, _, _, h => by omega
  | 0, f + 1, n, h1, h2, _ => by
    rw [decF, if_pos (by simpa using h2)]
    have : n % 10 = n := Nat.mod_eq_of_lt (by simpa using h2)
    show _ = [] ++ [UInt8.ofNat (48 + n % 10)]
    rw [this]; rfl
  | k + 1, f + 1, n, h1, h2, hf => by
    have hk : 1 ≤ 10 ^ k := Nat.pow_pos (by decide)
    rw [Nat.pow_succ] at h1 h2
    rw [decF, if_neg (by omega), decF_pad k f (n / 10) (by omega) (by omega) (by omega)]
    rfl

theorem two_pad (n : Nat) (h : n < 100) : two (n : Int) = pad 2 n := by
  unfold two dec
  rw [Int.toNat_natCast]
  by_cases h1 : n < 10
  · rw [if_pos h1, decF, if_pos h1, pad2]
    have e1 : n / 10 % 10 = 0 := by omega
    have e2 : n % 10 = n := by omega
    rw [e1, e2]; rfl
  · rw [if_neg h1, List.nil_append]
    exact decF_pad 1 _ n (by omega) (by omega) (by omega)

/-- C60. The text of a validity time put into a generated certificate is the UTC date
and time in 14 digits, for the years 1000 to 9999. -/
theorem certFormat_partial (t : TS) (hv : valid t = .ok true) (h1 : -30610224000 ≤ t.sec) (h2 : t.sec ≤ 253402300799)
    (size : Nat) : ∃ y m d h mi se, Date y m d ∧ 1000 ≤ y ∧ y ≤ 9999 ∧ h ≤ 23 ∧ mi ≤ 59 ∧ se ≤ 59 ∧
      t.sec = instant y m d h mi se 0 ∧
      certFormat t size = .ok (if 14 < size then
        some (pad 4 y ++ pad 2 m ++ pad 2 d ++ pad 2 h ++ pad 2 mi ++ pad 2 se) else none) := by
  obtain ⟨y, m, d, h, mi, se, hd, hy, hh, hmi, hse, hi, ht⟩ := toTm_spec t false hv (fun _ => ⟨by omega, by omega⟩)
  have hy1 : 1000 ≤ y := by
    rcases Nat.lt_or_ge y 1000 with hlt | h
    · exfalso
      have h999 := dby_closed' 999 1000 rfl
      have hm : daysBeforeMonth y m + d ≤ yearLen y := by
        have := dbm_13 y
        have mono : ∀ a b, a ≤ b → daysBeforeMonth y a ≤ daysBeforeMonth y b := by
          intro a b hab
          induction hab with
          | refl => exact Nat.le_refl _
          | step _ ih =>
            refine Nat.le_trans ih ?_
            rw [daysBeforeMonth]; split
            · rename_i h; rw [h]; exact Nat.le_refl _
            · omega
        have h13 := mono (m + 1) 13 (by have := hd.m12; omega)
        rw [daysBeforeMonth, if_neg (by have := hd.m1; omega)] at h13
        have := hd.dl; omega
      have hy' : daysBeforeYear (y + 1) = daysBeforeYear y + yearLen y := by
        rw [daysBeforeYear, if_neg (by have := hd.y1; omega)]
      have := dby_mono (by omega : y + 1 ≤ 1000)
      simp only [Bool.false_eq_true, if_false] at hi
      unfold instant at hi
      rw [epoch_day] at hi
      unfold dayNumber at hi
      generalize daysBeforeYear 1000 = A at *
      generalize daysBeforeYear y = B at *
      generalize daysBeforeMonth y m = C at *
      omega
    · exact h
  refine ⟨y, m, d, h, mi, se, hd, hy1, hy, hh, hmi, hse, by simpa using hi, ?_⟩
  unfold certFormat
  rw [ht, Out.bind]
  dsimp only
  have e1 : ((y : Int) - 1900 + 1900).toNat = y := by omega
  have e2 : (m : Int) - 1 + 1 = m := by omega
  have e3 : dec y = pad 4 y := decF_pad 3 (y + 1) y (by omega) (by omega) (by omega)
  have hdl := Nat.le_trans hd.dl (monthLen_le y m)
  have hm12 := hd.m12
  rw [e1, e2, e3, two_pad m (by omega), two_pad d (by omega), two_pad h (by omega), two_pad mi (by omega), two_pad se (by omega)]
  simp only [List.length_append, pad_length]
  by_cases hz : 14 < size
  · rw [if_pos hz, if_neg (by omega)]
  · rw [if_neg hz, if_pos (by omega)]

/-- C60. The year of a time before the year 1000 is not padded, so that the text is
shorter than the 14 characters the certificate writer requires
(oc_certs_generate.c:116). -/
theorem short_year_false :
    parse (b "0999-12-31T23:59:59Z") = .ok (some ⟨-30610224001, 0, 0⟩) ∧
    certFormat ⟨-30610224001, 0, 0⟩ 15 = .ok (some (b "9991231235959")) := by decide +kernel

example : certFormat ⟨1709245799, 0, 90⟩ 15 = .ok (some (b "20240229222959")) ∧
    toUnix ⟨2024, 2, 29, 22, 29, 59⟩ = .ok 1709245799 := by decide +kernel

example : toTm ⟨1709245799, 0, 90⟩ true = .ok (some ⟨59, 59, 23, 29, 1, 124, 4, 59⟩) := by decide +kernel

end Verif.Rfc3339
