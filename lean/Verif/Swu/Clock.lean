import Verif.Rfc3339.Props

/-!
Two facts about formatted times that the software update resource needs.
-/

namespace Verif.Rfc3339

open Spec

/-- A formatted time stamp has at most 35 characters. -/
theorem format_short (dst : Bytes) (t : TS) (n : Nat) (d : Bytes) (hf : format dst t = .ok (n, d)) :
    n ≤ 35 := by
  by_cases hv : valid t = .ok true
  · obtain ⟨p, ok, p1, p2, p3, p4, p5, p6, p7⟩ := format_text dst t hv
    have h1 := text_length p
    have h3 : p.zone.text.length ≤ 6 := by
      cases p.zone with
      | utc => simp [Zone.text]
      | off => simp [Zone.text, pad_length]
    have h4 : (Spec.fracText p.frac).length ≤ 10 := by
      cases hf : p.frac with
      | none => simp [Spec.fracText]
      | some f =>
        obtain ⟨k, v⟩ := f
        have := (ok.frac k v hf).2.1
        show (46 :: pad k v).length ≤ 10
        rw [List.length_cons, pad_length]; omega
    rw [List.length_append] at h1
    rw [hf] at p7
    split at p7
    · injection p7 with p7
      injection p7 with e1 e2
      omega
    · injection p7 with p7
      injection p7 with e1 e2
      omega
  · unfold format at hf
    cases hx : valid t with
    | ub => rw [hx] at hf; cases hf
    | ok v =>
      cases v with
      | true => exact absurd hx hv
      | false =>
        rw [hx] at hf
        simp only [Out.bind, Bool.not_false, if_true, Out.ok.injEq, Prod.mk.injEq] at hf
        omega

/-- Times after the year 9999 are not formatted. -/
theorem format_late (dst : Bytes) (t : TS) (n : Nat) (d : Bytes) (hf : format dst t = .ok (n, d))
    (hn : n ≠ 0) : t.sec + t.offset * 60 ≤ 253402300799 := by
  by_cases hv : valid t = .ok true
  · exact ((valid_iff t).1 hv).2.1
  · unfold format at hf
    cases hx : valid t with
    | ub => rw [hx] at hf; cases hf
    | ok v =>
      cases v with
      | true => exact absurd hx hv
      | false =>
        rw [hx] at hf
        simp only [Out.bind, Bool.not_false, if_true, Out.ok.injEq, Prod.mk.injEq] at hf
        omega

end Verif.Rfc3339
