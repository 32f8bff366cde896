import Verif.Rfc3339.Text
import Verif.Rep.Model
/-! C59: RFC 3339 texts and clock values; C60: conversions of certificate times. -/
namespace Verif.Rfc3339
open Spec
open Verif.Rep (b)

theorem autoPrecision_le (n : Nat) : autoPrecision n ≤ 9 := by
  unfold autoPrecision; split
  · omega
  · split
    · omega
    · split <;> omega

theorem autoPrecision_exact (n : Nat) : fracNsec (fracOf (autoPrecision n) n) = n := by
  unfold autoPrecision fracOf
  by_cases h0 : n = 0
  · rw [if_pos h0, h0]; rfl
  · rw [if_neg h0]
    split
    · show n / 10 ^ 6 * 10 ^ 6 = n
      omega
    · split
      · show n / 10 ^ 3 * 10 ^ 3 = n
        omega
      · show n / 10 ^ 0 * 10 ^ 0 = n
        omega

/-- C59. A valid time stamp is formatted to the text of the same instant, fraction
and offset, with a NUL after it and the rest of the buffer unchanged; if the text
with its NUL does not fit, nothing is written. -/
theorem format_text (dst : Bytes) (t : TS) (hv : valid t = .ok true) :
    ∃ p : Parts, p.Ok ∧ p.sep = 84 ∧ p.sec = t.sec ∧ (fracNsec p.frac : Int) = t.nsec ∧ p.zone.minutes = t.offset ∧
      (t.offset = 0 → p.zone = .utc 90) ∧ (t.nsec = 0 → p.frac = none) ∧
      format dst t =
        if p.text.length < dst.length then .ok (p.text.length, p.text ++ 0 :: dst.drop (p.text.length + 1)) else .ok (0, dst) := by
  have hn := ((valid_iff t).1 hv).2.2.1
  obtain ⟨p, ok, p1, p2, p3, p4, p5, p6⟩ := formatInternal_spec dst t _ hv (autoPrecision_le t.nsec.toNat)
  refine ⟨p, ok, p1, p2, ?_, p5, ?_, ?_, ?_⟩
  · rw [p4, autoPrecision_exact]; omega
  · intro h; rw [p3, h]; rfl
  · intro h; rw [p4, h]; rfl
  · unfold format
    rw [hv]
    exact p6

theorem parse_text (p : Parts) (h : p.Ok) : parse p.text = .ok (some ⟨p.sec, fracNsec p.frac, p.zone.minutes⟩) := by
  obtain ⟨r, h1, h2⟩ := parse_iff p.text
  rw [h1, (h2 _).2 ⟨p, h, rfl, rfl⟩]

/-- C59. What is formatted parses to the time stamp it was made from. -/
theorem parse_format (dst : Bytes) (t : TS) (n : Nat) (dst' : Bytes) (hv : valid t = .ok true)
    (hf : format dst t = .ok (n, dst')) (hn : n ≠ 0) :
    parse (dst'.take n) = .ok (some t) ∧ dst'[n]? = some 0 ∧ dst'.length = dst.length ∧ n < dst.length := by
  obtain ⟨p, ok, p1, p2, p3, p4, p5, p6, p7⟩ := format_text dst t hv
  rw [hf] at p7
  split at p7
  · rename_i hl
    injection p7 with p7
    injection p7 with e1 e2
    subst e1 e2
    refine ⟨?_, ?_, ?_, hl⟩
    · rw [List.take_left' rfl, parse_text p ok, p2, p3, p4]
    · rw [List.getElem?_append_right (Nat.le_refl _), Nat.sub_self]; rfl
    · rw [List.length_append, List.length_cons, List.length_drop]; omega
  · injection p7 with p7
    injection p7 with e1 e2
    exact absurd e1 hn

/-- C59. Formatting succeeds into every buffer of at least 36 bytes. -/
theorem format_fits (dst : Bytes) (t : TS) (hv : valid t = .ok true) (hl : 36 ≤ dst.length) :
    ∃ n dst', format dst t = .ok (n, dst') ∧ n ≠ 0 := by
  obtain ⟨p, ok, p1, p2, p3, p4, p5, p6, p7⟩ := format_text dst t hv
  have h1 := text_length p
  have h2 := zone_ne p.zone
  have h3 : p.zone.text.length ≤ 6 := by
    cases p.zone with
    | utc => simp [Zone.text]
    | off => simp [Zone.text, pad_length]
  have h4 : (Spec.fracText p.frac).length ≤ 10 := by
    cases hf : p.frac with
    | none => simp [Spec.fracText]
    | some f =>
      obtain ⟨k, v⟩ := f
      have := (ok.frac k v hf).2.1
      show (46 :: pad k v).length ≤ 10
      rw [List.length_cons, pad_length]; omega
  rw [List.length_append] at h1
  rw [if_pos (by omega)] at p7
  exact ⟨_, _, p7, by omega⟩

/-- C59. An invalid time stamp is refused and nothing is written; the validity test
is undefined only if the local time does not fit into 64 bits. -/
theorem format_invalid (dst : Bytes) (t : TS) (h : inI64 (t.sec + t.offset * 60) = true) (hv : valid t ≠ .ok true) :
    format dst t = .ok (0, dst) ∧ ∀ k, formatPrecision dst t k = .ok (0, dst) := by
  have : valid t = .ok false := by
    unfold valid at hv ⊢
    dsimp only at hv ⊢
    rw [h] at hv ⊢
    simp only [Bool.not_true, Bool.false_eq_true, if_false] at hv ⊢
    congr 1
    exact Bool.eq_false_iff.2 fun h => hv (congrArg _ h)
  unfold format formatPrecision
  rw [this]
  refine ⟨rfl, fun k => ?_⟩
  simp only [Out.bind]
  rw [if_pos (Or.inl (by rfl))]

/-- C59. With `k` digits of fraction the rest of the nanoseconds is cut off. -/
theorem format_precision (dst : Bytes) (t : TS) (k : Int) (hv : valid t = .ok true) :
    if 0 ≤ k ∧ k ≤ 9 then
      ∃ p : Parts, p.Ok ∧ p.sec = t.sec ∧ (fracNsec p.frac : Int) = t.nsec - t.nsec % (10 ^ (9 - k.toNat) : Nat) ∧
        (p.frac.map (·.1)).getD 0 = k.toNat ∧ p.zone.minutes = t.offset ∧
        formatPrecision dst t k =
          if p.text.length < dst.length then .ok (p.text.length, p.text ++ 0 :: dst.drop (p.text.length + 1)) else .ok (0, dst)
    else formatPrecision dst t k = .ok (0, dst) := by
  have ⟨_, _, hn, hn2, _⟩ := (valid_iff t).1 hv
  unfold formatPrecision
  rw [hv]
  simp only [Out.bind]
  split
  · rename_i hk
    rw [if_neg (by simp; omega)]
    obtain ⟨p, ok, p1, p2, p3, p4, p5, p6⟩ := formatInternal_spec dst t k.toNat hv (by omega)
    refine ⟨p, ok, p2, ?_, ?_, p5, p6⟩
    · rw [p4]
      obtain ⟨x, hx⟩ : ∃ x : Nat, t.nsec = x := ⟨t.nsec.toNat, by omega⟩
      rw [hx]
      have hd := Nat.div_add_mod x (10 ^ (9 - k.toNat))
      have hxl : x < 1000000000 := by omega
      unfold fracOf
      split
      · rename_i h0
        rw [h0]
        show ((0 : Nat) : Int) = _ - (_ : Int) % ((1000000000 : Nat) : Int)
        omega
      · show ((x / 10 ^ (9 - k.toNat) * 10 ^ (9 - k.toNat) : Nat) : Int) = _
        generalize 10 ^ (9 - k.toNat) = q at *
        rw [Nat.mul_comm]
        have : ((x % q : Nat) : Int) = (x : Int) % (q : Int) := rfl
        rw [← this]
        generalize x % q = r at *
        omega
    · rw [p4]
      unfold fracOf
      split
      · rename_i h0; rw [h0]; rfl
      · rfl
  · rename_i hk
    rw [if_pos (by simp; omega)]

example : parse (b "2024-02-29T23:59:60Z") = .ok none := by decide +kernel
example : parse (b "2023-02-29T23:59:59Z") = .ok none := by decide +kernel
example : parse (b "2024-02-29 23:59:59.25+01:30") = .ok (some ⟨1709245799, 250000000, 90⟩) := by decide +kernel
example : valid ⟨1709245799, 250000000, 90⟩ = .ok true := by decide +kernel
example : (format (List.replicate 36 7) ⟨1709245799, 250000000, 90⟩).bind (fun r => .ok (r.1, r.2.take 30)) =
    .ok (29, b "2024-02-29T23:59:59.250+01:30" ++ [0]) := by decide +kernel

/-! ### The clock -/

/-- C59. A clock value formats to a text that parses to the same value. -/
theorem clock_roundtrip (tps time : Nat) (dst : Bytes) (ht : 0 < tps) (hd : tps ∣ 1000000000)
    (hy : time / tps ≤ 253402300799) (h64 : time < 18446744073709551616) (hl : 36 ≤ dst.length) :
    ∃ n dst', encodeTime tps time dst = .ok (n, dst') ∧ n ≠ 0 ∧ parseClock tps (dst'.take n) = .ok (some time) := by
  obtain ⟨q, hq⟩ := hd
  have hq0 : 0 < q := by
    rcases Nat.eq_zero_or_pos q with h | h
    · rw [h] at hq; simp at hq
    · exact h
  have hr := Nat.mod_lt time ht
  have e1 : time % tps * 1000000000 / tps = time % tps * q := by
    rw [hq, Nat.mul_left_comm]
    exact Nat.mul_div_cancel_left _ ht
  have e2 : time % tps * q < 1000000000 := by
    rw [hq]; exact Nat.mul_lt_mul_of_pos_right hr hq0
  have hv : valid ⟨(time / tps : Nat), (time % tps * 1000000000 / tps : Nat), 0⟩ = .ok true := by
    rw [valid_iff, e1]
    dsimp only
    generalize time / tps = x at *
    generalize time % tps * q = y at *
    omega
  obtain ⟨n, dst', f1, f2⟩ := format_fits dst _ hv hl
  refine ⟨n, dst', f1, f2, ?_⟩
  unfold parseClock
  rw [(parse_format dst _ n dst' hv f1 f2).1]
  show Out.ok (some (fromTimespec tps (time / tps : Nat) (time % tps * 1000000000 / tps : Nat))) = _
  unfold fromTimespec
  rw [e1]
  have e3 : ((time % tps * q : Nat) : Int) * (tps : Int) / 1000000000 = (time % tps : Nat) := by
    have : time % tps * q * tps / 1000000000 = time % tps := by
      rw [Nat.mul_assoc, Nat.mul_comm q tps, ← hq]
      exact Nat.mul_div_cancel _ (by decide)
    rw [← Int.natCast_mul]
    generalize time % tps * q * tps = x at *
    generalize time % tps = y at *
    omega
  have e4 : ((time / tps : Nat) : Int) * (tps : Int) + ((time % tps : Nat) : Int) = (time : Int) := by
    have := Nat.div_add_mod time tps
    rw [Nat.mul_comm] at this
    rw [← Int.natCast_mul, ← Int.natCast_add, this]
  rw [e3, e4]
  congr 2
  omega

/-- C59. What an accepted text says about the clock: the ticks since 1970, for texts
that denote an instant from 1970 on. -/
theorem parseClock_value_partial (tps : Nat) (s : Bytes) (t : TS) (hs : parse s = .ok (some t)) (h0 : 0 ≤ t.sec)
    (hb : tps ≤ 1000000) : parseClock tps s = .ok (some (t.sec.toNat * tps + t.nsec.toNat * tps / 1000000000)) := by
  have ⟨_, v2, v3, v4, v5, _⟩ := (valid_iff t).1 (parse_valid s t hs)
  unfold parseClock
  rw [hs]
  simp only [Out.bind, Option.map_some, fromTimespec]
  obtain ⟨a, ha⟩ : ∃ a : Nat, t.sec = a := ⟨t.sec.toNat, by omega⟩
  obtain ⟨c, hc⟩ : ∃ c : Nat, t.nsec = c := ⟨t.nsec.toNat, by omega⟩
  rw [ha, hc]
  simp only [Int.toNat_natCast]
  have e : ((a : Int) * tps + (c : Int) * tps / 1000000000) = ((a * tps + c * tps / 1000000000 : Nat) : Int) := by
    rw [← Int.natCast_mul, ← Int.natCast_mul]
    generalize a * tps = x
    generalize c * tps = y
    omega
  rw [e]
  have h1 : a * tps ≤ 253402387199 * 1000000 := Nat.mul_le_mul (by omega) hb
  have h2 : c * tps ≤ 999999999 * 1000000 := Nat.mul_le_mul (by omega) hb
  generalize a * tps = x at *
  generalize c * tps = y at *
  congr 2
  omega

/-- C59. A text before 1970 is accepted by the clock and gives a time hundreds of
thousands of years in the future: the negative number of seconds is multiplied in
64-bit unsigned arithmetic (api/oc_clock.c:58-63). -/
theorem before_1970_false :
    parseClock 1000000 (b "1969-12-31T23:59:59Z") = .ok (some (18446744073709551616 - 1000000)) := by decide +kernel

example : ∃ n dst', encodeTime 1000000 1709245799123456 (List.replicate 64 0) = .ok (n, dst') ∧ n ≠ 0 ∧
    parseClock 1000000 (dst'.take n) = .ok (some 1709245799123456) :=
  clock_roundtrip _ _ _ (by decide) ⟨1000, by decide⟩ (by decide) (by decide) (by decide)

/-! ### Order -/

/-- C59. Comparing two time stamps compares the instants, whatever the offsets are. -/
theorem compare_order (a b : TS) (ha : 0 ≤ a.nsec ∧ a.nsec < 1000000000) (hb : 0 ≤ b.nsec ∧ b.nsec < 1000000000) :
    (compare a b < 0 ↔ a.sec * 1000000000 + a.nsec < b.sec * 1000000000 + b.nsec) ∧
    (compare a b = 0 ↔ a.sec * 1000000000 + a.nsec = b.sec * 1000000000 + b.nsec) := by
  unfold compare
  split
  · constructor <;> constructor <;> intro h <;> omega
  · split
    · constructor <;> constructor <;> intro h <;> omega
    · split
      · constructor <;> constructor <;> intro h <;> omega
      · split <;> constructor <;> constructor <;> intro h <;> omega

end Verif.Rfc3339
