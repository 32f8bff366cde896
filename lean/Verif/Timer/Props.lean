import Verif.Timer.Model
/-! Property theorems for `util/oc_timer.c` (C10). -/
namespace Verif.Timer

/-- The values a timer can hold. -/
def Ok (t : Timer) : Prop := t.start < W ∧ t.interval < W

/-- C10: for every clock value but the very last one a timer is expired exactly
from `start + interval` on (in unbounded arithmetic). -/
theorem expired_iff (t : Timer) (now : Nat) (h : Ok t) (hn : now + 1 < W) :
    expired t now = true ↔ t.start + t.interval ≤ now := by
  obtain ⟨h1, h2⟩ := h
  unfold expired W at *
  split
  · simp only [Bool.false_eq_true, false_iff]; omega
  · have : (now - t.start + 1) % 2 ^ 64 = now - t.start + 1 := Nat.mod_eq_of_lt (by omega)
    simp only [this, decide_eq_true_eq]; omega

/-- C10: once expired a timer stays expired while the clock advances. -/
theorem expired_mono (t : Timer) (now now' : Nat) (h : Ok t) (hle : now ≤ now')
    (hn : now' + 1 < W) (he : expired t now = true) : expired t now' = true := by
  rw [expired_iff t now h (by omega)] at he
  rw [expired_iff t now' h hn]
  omega

/-- C10: the remaining time is exactly the time to `start + interval`, unless that
sum exceeds the clock range; waiting that long is necessary and sufficient. -/
theorem until_spec (t : Timer) (now : Nat) (h : Ok t) (hn : now + 1 < W)
    (hs : t.start + t.interval < W) :
    untilT t now = t.start + t.interval - now ∧
    (untilT t now = 0 ↔ expired t now = true) ∧
    expiration t = t.start + t.interval ∧
    ∀ d, now + d + 1 < W → (expired t (now + d) = true ↔ untilT t now ≤ d) := by
  have he := expired_iff t now h hn
  have hu : untilT t now = t.start + t.interval - now := by
    unfold untilT
    by_cases hx : expired t now = true
    · rw [if_pos hx]; have := he.mp hx; omega
    · rw [if_neg hx]
      have : ¬ t.start + t.interval ≤ now := fun h => hx (he.mpr h)
      unfold W at *
      omega
  refine ⟨hu, ?_, Nat.mod_eq_of_lt hs, ?_⟩
  · rw [hu, he]; omega
  · intro d hd
    rw [expired_iff t (now + d) h (by omega), hu]; omega

example : untilT ⟨100, 50⟩ 120 = 30 := (until_spec ⟨100, 50⟩ 120 ⟨by decide, by decide⟩ (by decide) (by decide)).1

/-- C10: `reset` is drift-free: resetting `n` times moves the expiration by exactly
`n` intervals, whatever the clock does in between. -/
theorem reset_no_drift (t : Timer) (n : Nat) (hw : t.start + (n + 1) * t.interval < W) :
    expiration (Nat.repeat reset n t) = t.start + (n + 1) * t.interval := by
  have key : ∀ n, t.start + n * t.interval < W →
      Nat.repeat reset n t = ⟨t.start + n * t.interval, t.interval⟩ := by
    intro n
    induction n with
    | zero => intro _; simp [Nat.repeat]
    | succ n ih =>
      intro h
      have h2 : (n + 1) * t.interval = n * t.interval + t.interval := Nat.succ_mul _ _
      rw [Nat.repeat, ih (by omega)]
      simp only [reset]
      rw [Nat.mod_eq_of_lt (by omega)]
      congr 1
      omega
  have h2 : (n + 1) * t.interval = n * t.interval + t.interval := Nat.succ_mul _ _
  rw [key n (by omega)]
  simp only [expiration]
  rw [Nat.mod_eq_of_lt (by omega)]
  omega

example : expiration (Nat.repeat reset 3 ⟨10, 5⟩) = 30 := reset_no_drift ⟨10, 5⟩ 3 (by decide)

/-- C10: `set` and `restart` count from the current time. -/
theorem set_spec (i now now' : Nat) (hi : i < W) (hn : now < W) (hn' : now' + 1 < W) (t : Timer) (ht : Ok t) :
    (expired (set i now) now' = true ↔ now + i ≤ now') ∧
    (expired (restart t now) now' = true ↔ now + t.interval ≤ now') :=
  ⟨expired_iff _ _ ⟨hn, hi⟩ hn', expired_iff _ _ ⟨hn, ht.2⟩ hn'⟩

example : expired (set 10 5) 15 = true ∧ expired (set 10 5) 14 = false := by decide

/-- C10 (boundary): at the last clock value the `+ 1` wraps and an expired timer
reports not expired. -/
theorem expired_last_clock_false : expired ⟨0, 5⟩ (W - 1) = false ∧ 0 + 5 ≤ W - 1 := by decide

end Verif.Timer
