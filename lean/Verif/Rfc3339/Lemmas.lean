import Verif.Rfc3339.Model
import Verif.Rfc3339.Spec
/-! Helper lemmas: the calendar. -/
namespace Verif.Rfc3339
open Spec

theorem leap_iff (y : Nat) : leap y = true ↔ y % 4 = 0 ∧ (y % 100 ≠ 0 ∨ y % 400 = 0) := by
  unfold leap
  simp only [Bool.and_eq_true, decide_eq_true_eq, Bool.or_eq_true, Bool.not_eq_true', decide_eq_false_iff_not]
  omega

theorem dby_closed : ∀ n : Nat, daysBeforeYear (n + 1) + n / 100 = 365 * n + n / 4 + n / 400
  | 0 => rfl
  | n + 1 => by
    have ih := dby_closed n
    rw [daysBeforeYear, if_neg (by omega)]
    unfold yearLen
    by_cases h : leap (n + 1) = true
    · rw [if_pos h]
      have := (leap_iff _).1 h
      omega
    · rw [if_neg h]
      have : ¬ ((n + 1) % 4 = 0 ∧ ((n + 1) % 100 ≠ 0 ∨ (n + 1) % 400 = 0)) := fun hh => h ((leap_iff _).2 hh)
      omega

/-- The year beginning with March. -/
def marchYear (y m : Nat) : Nat := if m < 3 then y - 1 else y
/-- The day of that year. -/
def marchDay (m d : Nat) : Nat := dayOffset.getD m 0 + d

theorem month_cases {m : Nat} (h1 : 1 ≤ m) (h2 : m ≤ 12) :
    m = 1 ∨ m = 2 ∨ m = 3 ∨ m = 4 ∨ m = 5 ∨ m = 6 ∨ m = 7 ∨ m = 8 ∨ m = 9 ∨ m = 10 ∨ m = 11 ∨ m = 12 := by omega

theorem march_linear (Y D m d yl A B C A' B' C' : Nat) (lp : Bool) (m1 : 1 ≤ m) (m12 : m ≤ 12) (d1 : 1 ≤ d)
    (hyl : yl = if lp then 366 else 365)
    (mon : Nat) (hmon : mon = (if m < 3 then 0 else if lp then 1 else 0) + [0, 0, 31, 59, 90, 120, 151, 181, 212, 243, 273, 304, 334].getD m 0)
    (ml : Nat) (hml : ml = if m = 2 then (if lp then 29 else 28) else if m = 4 ∨ m = 6 ∨ m = 9 ∨ m = 11 then 30 else 31)
    (dl : d ≤ ml) (h1 : D + A = 365 * Y + B + C) (h2 : D + yl + A' = 365 * (Y + 1) + B' + C') :
    (m < 3 → D + mon + d + 306 + A = 365 * Y + B + C + marchDay m d) ∧
    (¬ m < 3 → D + mon + d + 306 + A' = 365 * (Y + 1) + B' + C' + marchDay m d) ∧
    1 ≤ marchDay m d ∧ marchDay m d ≤ 366 ∧ (marchDay m d = 366 → m < 3 ∧ lp = true) := by
  subst hyl hmon hml
  unfold marchDay
  rcases month_cases m1 m12 with rfl | rfl | rfl | rfl | rfl | rfl | rfl | rfl | rfl | rfl | rfl | rfl <;>
    cases lp <;> simp [dayOffset] at dl h2 ⊢ <;> omega

theorem march_month (y m d : Nat) (h : Date y m d) :
    (535 * marchDay m d + 48950) / 16384 = (if m < 3 then m + 12 else m) := by
  obtain ⟨y1, m1, m12, d1, dl⟩ := h
  unfold marchDay
  unfold monthLen at dl
  have : (if leap y = true then 29 else 28) ≤ 29 := by split <;> omega
  generalize (if leap y = true then 29 else 28) = f at *
  rcases month_cases m1 m12 with rfl | rfl | rfl | rfl | rfl | rfl | rfl | rfl | rfl | rfl | rfl | rfl <;>
    simp [dayOffset] at dl ⊢ <;> omega

theorem dbm_closed (y m : Nat) (m1 : 1 ≤ m) (m12 : m ≤ 12) : daysBeforeMonth y m =
    (if m < 3 then 0 else if leap y then 1 else 0) + [0, 0, 31, 59, 90, 120, 151, 181, 212, 243, 273, 304, 334].getD m 0 := by
  rcases month_cases m1 m12 with rfl | rfl | rfl | rfl | rfl | rfl | rfl | rfl | rfl | rfl | rfl | rfl <;>
    by_cases h : leap y = true <;> simp [daysBeforeMonth, monthLen, h]

theorem march_day (y m d : Nat) (h : Date y m d) :
    dayNumber y m d + 306 + marchYear y m / 100 =
      365 * marchYear y m + marchYear y m / 4 + marchYear y m / 400 + marchDay m d ∧
    1 ≤ marchDay m d ∧ marchDay m d ≤ 366 ∧ (marchDay m d = 366 → leap (marchYear y m + 1) = true) ∧
    (535 * marchDay m d + 48950) / 16384 = (if m < 3 then m + 12 else m) := by
  have hmon := march_month y m d h
  obtain ⟨y1, m1, m12, d1, dl⟩ := h
  obtain ⟨n, rfl⟩ : ∃ n, y = n + 1 := ⟨y - 1, by omega⟩
  have hc := dby_closed n
  have hc2 := dby_closed (n + 1)
  rw [daysBeforeYear, if_neg (by omega)] at hc2
  obtain ⟨l1, l2, l3, l4, l5⟩ := march_linear n (daysBeforeYear (n + 1)) m d (yearLen (n + 1)) _ _ _ _ _ _ (leap (n + 1))
    m1 m12 d1 rfl _ (dbm_closed (n + 1) m m1 m12) _ rfl dl hc hc2
  unfold dayNumber
  refine ⟨?_, l3, l4, ?_, hmon⟩
  · unfold marchYear
    by_cases hm : m < 3
    · rw [if_pos hm, Nat.add_sub_cancel]; exact l1 hm
    · rw [if_neg hm]; exact l2 hm
  · intro he
    have ⟨p1, p2⟩ := l5 he
    unfold marchYear
    rw [if_pos p1, Nat.add_sub_cancel]
    exact p2

theorem parts_arith (q c k j doy : Nat) (hq : q ≤ 24) (hc : c ≤ 3) (hk : k ≤ 24) (hj : j ≤ 3) (h1 : 1 ≤ doy)
    (hx : doy ≤ 365 ∨ doy = 366 ∧ j = 3 ∧ (k ≤ 23 ∨ c = 3)) :
    (14609700 * q + 3652400 * c + 146100 * k + 36500 * j + 100 * doy - 25) / 3652425 = 4 * q + c ∧
    (14610000 * q + 3652500 * c + 146100 * k + 36500 * j + 100 * doy - 25) / 36525 = 400 * q + 100 * c + 4 * k + j := by
  constructor
  · apply Nat.div_eq_of_lt_le
    · omega
    · rcases hx with h | ⟨h, h', h'' | h''⟩ <;> omega
  · apply Nat.div_eq_of_lt_le
    · omega
    · rcases hx with h | ⟨h, h', h'' | h''⟩ <;> omega

theorem year_split (Y : Nat) : ∃ q c k j, Y = 400 * q + 100 * c + 4 * k + j ∧ c ≤ 3 ∧ k ≤ 24 ∧ j ≤ 3 ∧
    Y / 100 = 4 * q + c ∧ Y / 4 = 100 * q + 25 * c + k ∧ Y / 400 = q ∧ (leap (Y + 1) = true → j = 3 ∧ (k ≤ 23 ∨ c = 3)) := by
  refine ⟨Y / 400, Y % 400 / 100, Y % 100 / 4, Y % 4, by omega, by omega, by omega, by omega, by omega, by omega, rfl, ?_⟩
  intro h
  have := (leap_iff _).1 h
  omega

theorem rdnParts_spec (Y doy n : Nat) (hY : Y ≤ 9999) (h1 : 1 ≤ doy) (h2 : doy ≤ 366)
    (h3 : doy = 366 → leap (Y + 1) = true)
    (hn : n + 306 + Y / 100 = 365 * Y + Y / 4 + Y / 400 + doy) :
    rdnParts n = (Y, (535 * doy + 48950) / 16384, doy) := by
  obtain ⟨q, c, k, j, hd, hc, hk, hj, e1, e2, e3, e4⟩ := year_split Y
  have hx : doy ≤ 365 ∨ doy = 366 ∧ j = 3 ∧ (k ≤ 23 ∨ c = 3) := by
    by_cases h : doy = 366
    · exact .inr ⟨h, e4 (h3 h)⟩
    · left; omega
  rw [e1, e2, e3] at hn
  clear h3 e4 e1 e2 e3
  have hq : q ≤ 24 := by omega
  have hz : n + 306 = 146097 * q + 36524 * c + 1461 * k + 365 * j + doy := by omega
  clear hn
  have ⟨hA, hy⟩ := parts_arith q c k j doy hq hc hk hj h1 hx
  clear hx
  generalize hZ : 146097 * q + 36524 * c + 1461 * k + 365 * j + doy = Z at hz
  generalize hHd : 14609700 * q + 3652400 * c + 146100 * k + 36500 * j + 100 * doy - 25 = H at hA
  generalize hGd : 14610000 * q + 3652500 * c + 146100 * k + 36500 * j + 100 * doy - 25 = G at hy
  have hH : H = 100 * Z - 25 := by omega
  have hG : G = 100 * (3 * q + c) + H := by omega
  have hZb : 1 ≤ Z ∧ Z ≤ 4000000 := by omega
  have hD : 3 * q + c + Z = 146100 * q + 36525 * c + 1461 * k + 365 * j + doy := by omega
  have hY4 : 1461 * Y / 4 = 146100 * q + 36525 * c + 1461 * k + 365 * j := by
    rw [hd]; clear hHd hGd hZ hH hG hz hA hy hD hd; omega
  rw [← hd] at hy
  clear hHd hGd hZ
  have s1 : (n + 306) % u32 = Z := by rw [hz]; unfold u32; exact Nat.mod_eq_of_lt (by omega)
  have s2 : (100 * Z + u32 - 25) % u32 = H := by
    rw [hH, show 100 * Z + u32 - 25 = 100 * Z - 25 + u32 by unfold u32; omega, Nat.add_mod_right]
    unfold u32; exact Nat.mod_eq_of_lt (by omega)
  have s3 : (4 * q + c + u32 - (4 * q + c) / 4) % u32 = 3 * q + c := by
    have : (4 * q + c) / 4 = q := by clear s1 s2 hy hA hY4; omega
    rw [this, show 4 * q + c + u32 - q = 3 * q + c + u32 by unfold u32; omega, Nat.add_mod_right]
    unfold u32; exact Nat.mod_eq_of_lt (by omega)
  have s4 : ((100 * (3 * q + c) + H) % u32) / 36525 = Y := by
    rw [← hG, Nat.mod_eq_of_lt (by unfold u32; omega), hy]
  have s5 : ((3 * q + c) + Z + u32 - (1461 * Y % u32) / 4) % u32 = doy := by
    rw [Nat.mod_eq_of_lt (a := 1461 * Y) (by unfold u32; omega), hY4, hD]
    rw [show 146100 * q + 36525 * c + 1461 * k + 365 * j + doy + u32 - (146100 * q + 36525 * c + 1461 * k + 365 * j) =
      doy + u32 by unfold u32; omega, Nat.add_mod_right]
    unfold u32; exact Nat.mod_eq_of_lt (by omega)
  unfold rdnParts
  simp only [s1, s2, hA, s3, s4, s5]
  rw [Nat.mod_eq_of_lt (by unfold u32; omega)]

theorem get_offset {m : Nat} (h : m ≤ 12) : Out.get dayOffset m = .ok (dayOffset.getD m 0) := by
  unfold Out.get
  have : m < dayOffset.length := by simp [dayOffset]; omega
  rw [List.getElem?_eq_getElem this, List.getD_eq_getElem?_getD, List.getElem?_eq_getElem this]
  rfl

theorem monthLen_le (y m : Nat) : monthLen y m ≤ 31 := by
  unfold monthLen; split
  · split <;> omega
  · split <;> omega

/-- The day number computed by the parser is the count of days. -/
theorem rdnOf_spec (y m d : Nat) (h : Date y m d) (hy : y ≤ 9999) :
    rdnOf (if m < 3 then y - 1 else y) m d = .ok (dayNumber y m d) := by
  have ⟨h1, h2, h3, h4, h5⟩ := march_day y m d h
  unfold rdnOf
  rw [get_offset h.m12, Out.bind]
  have e : (if m < 3 then y - 1 else y) = marchYear y m := rfl
  rw [e]
  have hY : marchYear y m ≤ 9999 := by unfold marchYear; split <;> omega
  have ho : marchDay m d = dayOffset.getD m 0 + d := rfl
  have e4 : 1461 * marchYear y m / 4 = 365 * marchYear y m + marchYear y m / 4 := by omega
  have hn : dayNumber y m d < 5000000 := by
    have : marchYear y m / 4 ≤ marchYear y m := Nat.div_le_self _ _
    have : marchYear y m / 400 ≤ marchYear y m := Nat.div_le_self _ _
    generalize marchYear y m / 400 = c at *
    generalize marchYear y m / 4 = b at *
    generalize marchYear y m / 100 = a at *
    omega
  rw [e4]
  clear e e4 h4 h5
  generalize marchYear y m / 400 = c at *
  generalize marchYear y m / 4 = b at *
  generalize marchYear y m / 100 = a at *
  generalize marchYear y m = Y at *
  generalize dayOffset.getD m 0 = o at *
  generalize dayNumber y m d = n at *
  congr 1
  have : (((365 * Y + b : Nat) : Int) - (a : Nat) + (c : Nat) + (o : Nat) + (d : Nat) - 306) = (n : Int) := by omega
  rw [this, Int.emod_eq_of_lt (by omega) (by unfold u32; omega), Int.toNat_natCast]

theorem dby_mono {a b : Nat} (h : a ≤ b) : daysBeforeYear a ≤ daysBeforeYear b := by
  induction h with
  | refl => exact Nat.le_refl _
  | step h ih =>
    refine Nat.le_trans ih ?_
    rw [daysBeforeYear]; split
    · rename_i h; rw [h]; exact Nat.le_refl _
    · omega

/-- `rdn_to_ymd` finds the date of a day number. -/
theorem rdnToYmd_spec (y m d : Nat) (h : Date y m d) (hy : y ≤ 9999) :
    rdnToYmd (dayNumber y m d) = .ok (y, m, d) := by
  have ⟨h1, h2, h3, h4, h5⟩ := march_day y m d h
  have hY : marchYear y m ≤ 9999 := by unfold marchYear; split <;> omega
  have hp := rdnParts_spec _ _ _ hY h2 h3 h4 h1
  have h12 := h.m12
  have hm1 := h.m1
  have hy1 := h.y1
  have hd : d ≤ 31 := Nat.le_trans h.dl (monthLen_le _ _)
  clear h1 h2 h3 h4 hY
  have ed : ∀ o : Nat, (o + d + u32 - o) % u32 % 65536 = d := by
    intro o
    have e1 : o + d + u32 - o = d + u32 := by omega
    have e2 : d % u32 = d := Nat.mod_eq_of_lt (by unfold u32; omega)
    rw [e1, Nat.add_mod_right, e2]
    exact Nat.mod_eq_of_lt (by omega)
  have hme : (if m < 3 then m + 12 else m) > 12 ↔ m < 3 := by split <;> omega
  unfold rdnToYmd
  simp only [hp, h5, hme]
  by_cases hm : m < 3
  · simp only [hm, if_true, Nat.add_sub_cancel, get_offset h12, Out.bind, marchYear, marchDay, ed]
    have : y - 1 + 1 = y := by omega
    rw [this, Nat.mod_eq_of_lt (by omega : y < 65536), Nat.mod_eq_of_lt (by omega : m < 65536)]
  · simp only [hm, if_false, get_offset h12, Out.bind, marchYear, marchDay, ed]
    rw [Nat.mod_eq_of_lt (by omega : y < 65536), Nat.mod_eq_of_lt (by omega : m < 65536)]

theorem dbm_13 (y : Nat) : daysBeforeMonth y 13 = yearLen y := by
  by_cases h : leap y = true <;> simp [daysBeforeMonth, monthLen, yearLen, h]

/-- Every day has a date. -/
theorem exists_month (y : Nat) : ∀ (k r : Nat), k ≤ 12 → 1 ≤ r → r ≤ daysBeforeMonth y (k + 1) →
    ∃ m d, 1 ≤ m ∧ m ≤ 12 ∧ 1 ≤ d ∧ d ≤ monthLen y m ∧ r = daysBeforeMonth y m + d
  | 0, r, _, h1, h2 => by simp [daysBeforeMonth] at h2; omega
  | k + 1, r, hk, h1, h2 => by
    by_cases h : r ≤ daysBeforeMonth y (k + 1)
    · exact exists_month y k r (by omega) h1 h
    · rw [daysBeforeMonth, if_neg (by omega)] at h2
      exact ⟨k + 1, r - daysBeforeMonth y (k + 1), by omega, by omega, by omega, by omega, by omega⟩

theorem exists_year : ∀ (k n : Nat), 1 ≤ n → n ≤ daysBeforeYear (k + 1) →
    ∃ y r, 1 ≤ y ∧ y ≤ k ∧ 1 ≤ r ∧ r ≤ yearLen y ∧ n = daysBeforeYear y + r
  | 0, n, h1, h2 => by simp [daysBeforeYear] at h2; omega
  | k + 1, n, h1, h2 => by
    by_cases h : n ≤ daysBeforeYear (k + 1)
    · obtain ⟨y, r, a, b, c, d, e⟩ := exists_year k n h1 h
      exact ⟨y, r, a, by omega, c, d, e⟩
    · rw [daysBeforeYear, if_neg (by omega)] at h2
      exact ⟨k + 1, n - daysBeforeYear (k + 1), by omega, by omega, by omega, by omega, by omega⟩

theorem exists_date (k n : Nat) (h1 : 1 ≤ n) (h2 : n ≤ daysBeforeYear (k + 1)) :
    ∃ y m d, Date y m d ∧ y ≤ k ∧ dayNumber y m d = n := by
  obtain ⟨y, r, a1, a2, a3, a4, a5⟩ := exists_year k n h1 h2
  obtain ⟨m, d, b1, b2, b3, b4, b5⟩ := exists_month y 12 r (by omega) a3 (by rw [dbm_13]; exact a4)
  exact ⟨y, m, d, ⟨a1, b1, b2, b3, b4⟩, a2, by unfold dayNumber; omega⟩

theorem dby_closed' (n y : Nat) (h : y = n + 1) : daysBeforeYear y + n / 100 = 365 * n + n / 4 + n / 400 := by
  subst h; exact dby_closed n

theorem dby_10000 : daysBeforeYear 10000 = 3652059 := by
  have := dby_closed' 9999 10000 rfl
  generalize daysBeforeYear 10000 = x at *
  omega

theorem epoch_day : dayNumber 1970 1 1 = 719163 := by
  have := dby_closed' 1969 1970 rfl
  unfold dayNumber
  have h : daysBeforeMonth 1970 1 = 0 := by simp [daysBeforeMonth]
  rw [h]
  generalize daysBeforeYear 1970 = x at *
  omega

end Verif.Rfc3339
