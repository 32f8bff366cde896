import Verif.PlgdTime.Spec
import Verif.Rfc3339.Props

/-! Properties of the synchronised time. -/

namespace Verif.PlgdTime

open Verif.Rep (Rep Val b)
open Verif.Rfc3339

/-! ### Lemmas -/

/-- A time up to the year 9999 has a text that is read back as the same time. -/
theorem text_back (t : Nat) (h : t ≤ endOfTime) :
    ∃ x, text t = .ok (some x) ∧ parseClock tps x = .ok (some t) := by
  unfold endOfTime at h
  obtain ⟨n, d, h1, h2, h3⟩ := clock_roundtrip tps t (List.replicate 64 0) (by decide) ⟨1000, by decide⟩
    (by unfold tps; omega) (by omega) (by decide)
  refine ⟨d.take n, ?_, h3⟩
  unfold text
  rw [h1]
  show Out.ok (if n = 0 then none else some (d.take n)) = _
  rw [if_neg h2]

theorem decode_one (x : List UInt8) : decode [(b "lastSyncedTime", .str x)] = parseClock tps x := by
  unfold decode lastLst lastLst
  dsimp only
  rw [if_pos rfl]

theorem time_eq (s : St) (c : Nat) (h0 : s.lst ≠ 0) (h1 : s.upd ≤ c) (h2 : c < 9223372036854775808)
    (h3 : s.lst + (c - s.upd) < 18446744073709551616) : time s (some c) = .ok (s.lst + (c - s.upd)) := by
  unfold time
  rw [if_neg h0]
  dsimp only
  have e : (c + 18446744073709551616 - s.upd) % 18446744073709551616 = c - s.upd := by omega
  rw [e, if_pos (by omega), Nat.mod_eq_of_lt h3]

/-- Setting a time, with a clock that works. -/
theorem setTime_eq (s : St) (lst m : Nat) (r : Reads) (h0 : lst ≠ 0) (hm : m < 9223372036854775808)
    (hr : r.set = some m) (hh : r.hook = some m) (hl : lst < 18446744073709551616) :
    ∃ t, setTime s lst r = .ok (true, t) ∧ t.lst = lst ∧ t.upd = m ∧ t.status = 2 ∧ t.disk = s.disk ∧
      t.hook = s.hook ∧ t.sys = (if s.hook then s.sys ++ [lst] else s.sys) := by
  unfold setTime
  rw [if_neg h0, hr]
  dsimp only
  rw [if_neg (by unfold minusOne; omega)]
  unfold put
  dsimp only
  cases hk : s.hook with
  | false =>
    rw [if_neg (by simp)]
    exact ⟨_, rfl, rfl, rfl, rfl, rfl, rfl, by simp⟩
  | true =>
    rw [if_pos rfl, hh, time_eq _ m h0 (Nat.le_refl _) hm (by dsimp only; omega)]
    refine ⟨_, rfl, rfl, rfl, rfl, rfl, rfl, ?_⟩
    show s.sys ++ [lst + (m - m)] = s.sys ++ [lst]
    rw [Nat.sub_self, Nat.add_zero]

theorem dump_eq (s : St) (saved : Bool) (h : s.lst ≤ endOfTime) :
    ∃ x, lstText s = .ok (some x) ∧ dump s saved =
      .ok (if saved then { s with disk := some [(b "lastSyncedTime", .str x)] } else s) ∧
      (s.lst ≠ 0 → parseClock tps x = .ok (some s.lst)) ∧ (s.lst = 0 → x = []) := by
  unfold dump lstText
  by_cases h0 : s.lst = 0
  · rw [if_pos h0]
    exact ⟨[], rfl, rfl, fun x => absurd h0 x, fun _ => rfl⟩
  · rw [if_neg h0]
    obtain ⟨x, hx, hp⟩ := text_back s.lst h
    rw [hx]
    exact ⟨x, rfl, rfl, fun _ => hp, fun x => absurd x h0⟩

theorem apiSet_eq (s t u : St) (lst : Nat) (r : Reads) (saved : Bool) (h1 : setTime s lst r = .ok (true, t))
    (h2 : dump t saved = .ok u) : apiSet s lst r saved = .ok (true, u) := by
  simp only [apiSet, h1, Out.bind, if_true, h2]

theorem restart_idle (s : St) (r : Reads) (h : s.disk = none ∨ ∃ rep, s.disk = some rep ∧ decode rep = .ok none) :
    restart s r = .ok { s with lst := 0, upd := 0, status := 0 } := by
  rcases h with h | ⟨rep, h, hd⟩
  · simp only [restart, load, h, Out.bind]
  · simp only [restart, load, h, hd, Out.bind]

theorem restart_set (s t : St) (r : Reads) (rep : Rep) (lst : Nat) (h : s.disk = some rep) (hd : decode rep = .ok (some lst))
    (h1 : setTime { s with lst := 0, upd := 0, status := 0 } lst r = .ok (true, t)) :
    restart s r = .ok { t with status := 3 } := by
  simp only [restart, load, h, hd, Out.bind]
  rw [← h, h1]
  rfl

/-! ### The time -/

/-- After the time was set the device shows that time plus the ticks gone by on its
monotonic clock, until it is set again; and while it is set to a new value the
function for the system time is called once with exactly that value. -/
theorem runs (s : St) (lst m : Nat) (r : Reads) (h0 : lst ≠ 0) (hm : m < 9223372036854775808)
    (hr : r.set = some m) (hh : r.hook = some m) (hl : lst < 18446744073709551616) :
    ∃ t, setTime s lst r = .ok (true, t) ∧ t.status = 2 ∧ t.sys = (if s.hook then s.sys ++ [lst] else s.sys) ∧
      ∀ v c, m ≤ c → c < 9223372036854775808 → lst + (c - m) < 18446744073709551616 →
        time { t with status := v } (some c) = .ok (lst + (c - m)) := by
  obtain ⟨t, ht, h1, h2, h3, h4, h5, h6⟩ := setTime_eq s lst m r h0 hm hr hh hl
  refine ⟨t, ht, h3, h6, ?_⟩
  intro v c hc hc2 hlt
  have := time_eq { t with status := v } c (by rw [show ({ t with status := v } : St).lst = t.lst from rfl, h1]; exact h0)
    (by rw [show ({ t with status := v } : St).upd = t.upd from rfl, h2]; exact hc) hc2
    (by rw [show ({ t with status := v } : St).lst = t.lst from rfl, show ({ t with status := v } : St).upd = t.upd from rfl, h1, h2]; exact hlt)
  rw [this, show ({ t with status := v } : St).lst = t.lst from rfl, show ({ t with status := v } : St).upd = t.upd from rfl, h1, h2]

/-- What holds of a device in the world. -/
structure Inv (w : World) : Prop where
  boot : w.boot ≤ w.real
  upd : w.s.upd ≤ w.mono
  ahead : w.s.lst ≠ 0 → w.s.lst + (w.mono - w.s.upd) ≤ w.real
  exact : w.synced = true → w.s.lst + (w.mono - w.s.upd) = w.real
  active : w.synced = true → 0 < w.s.lst
  disk : ∀ rep, w.s.disk = some rep → ∃ x, rep = [(b "lastSyncedTime", .str x)] ∧
    (x = [] ∨ ∃ t, t ≠ 0 ∧ t ≤ w.real ∧ parseClock tps x = .ok (some t))

theorem parse_empty : parseClock tps [] = .ok none := by decide +kernel

theorem step_inv (w : World) (h : Inv w) (hr : 0 < w.real) (v : Ev) (hb : w.real + v.length ≤ endOfTime) :
    ∃ w', w.step v = .ok w' ∧ Inv w' ∧ w'.real = w.real + v.length := by
  have hmb : w.mono ≤ endOfTime := by
    unfold World.mono
    omega
  have hend : endOfTime < 9223372036854775808 := by unfold endOfTime; omega
  cases v with
  | pass d =>
    refine ⟨_, rfl, ⟨?_, ?_, ?_, ?_, h.active, ?_⟩, rfl⟩
    · show w.boot ≤ w.real + d
      have := h.boot; omega
    · show w.s.upd ≤ w.real + d - w.boot
      have := h.upd; have := h.boot; unfold World.mono at *; omega
    · intro x
      have h1 := h.ahead x; have := h.upd; have := h.boot
      show w.s.lst + (w.real + d - w.boot - w.s.upd) ≤ w.real + d
      unfold World.mono at *; omega
    · intro x
      have h1 := h.exact x; have := h.upd; have := h.boot
      show w.s.lst + (w.real + d - w.boot - w.s.upd) = w.real + d
      unfold World.mono at *; omega
    · intro rep hrep
      obtain ⟨x, hx, ht⟩ := h.disk rep hrep
      refine ⟨x, hx, ?_⟩
      rcases ht with ht | ⟨t, h1, h2, h3⟩
      · exact Or.inl ht
      · exact Or.inr ⟨t, h1, Nat.le_trans h2 (Nat.le_add_right _ _), h3⟩
  | status v => exact ⟨_, rfl, ⟨h.boot, h.upd, h.ahead, h.exact, h.active, h.disk⟩, rfl⟩
  | sync saved =>
    have hb : w.real ≤ endOfTime := hb
    obtain ⟨t, ht, h1, h2, h3, h4, h5, h6⟩ := setTime_eq w.s w.real w.mono w.reads (by omega) (by omega) rfl rfl (by omega)
    obtain ⟨x, hx, hd, hp, _⟩ := dump_eq t saved (by rw [h1]; exact hb)
    have hstep : w.step (.sync saved) = .ok { w with
        s := if saved then { t with disk := some [(b "lastSyncedTime", .str x)] } else t, synced := true } := by
      unfold World.step
      dsimp only
      rw [apiSet_eq _ _ _ _ _ _ ht hd]
      rfl
    refine ⟨_, hstep, ?_, rfl⟩
    have key : ∀ q : St, q.lst = w.real → q.upd = w.mono →
        (∀ rep, q.disk = some rep → ∃ x, rep = [(b "lastSyncedTime", .str x)] ∧
          (x = [] ∨ ∃ t, t ≠ 0 ∧ t ≤ w.real ∧ parseClock tps x = .ok (some t))) →
        Inv { w with s := q, synced := true } := by
      intro q hq1 hq2 hq3
      refine ⟨h.boot, ?_, ?_, ?_, ?_, hq3⟩
      · show q.upd ≤ w.mono; omega
      · intro _; show q.lst + (w.mono - q.upd) ≤ w.real; omega
      · intro _; show q.lst + (w.mono - q.upd) = w.real; omega
      · intro _; show 0 < q.lst; omega
    cases saved with
    | false => exact key t h1 h2 (by rw [h4]; exact h.disk)
    | true =>
      refine key { t with disk := some [(b "lastSyncedTime", .str x)] } h1 h2 ?_
      intro rep hrep
      cases hrep
      exact ⟨x, rfl, Or.inr ⟨w.real, by omega, Nat.le_refl _, by rw [← h1]; exact hp (by omega)⟩⟩
  | reset saved =>
    have hset : ∃ t, setTime w.s 0 w.reads = .ok (true, t) ∧ t.lst = 0 ∧ t.upd = 0 ∧ t.disk = w.s.disk := by
      unfold setTime put
      rw [if_pos rfl]
      dsimp only
      cases hk : w.s.hook with
      | false => exact ⟨_, rfl, rfl, rfl, rfl⟩
      | true => exact ⟨_, rfl, rfl, rfl, rfl⟩
    obtain ⟨t, ht, h1, h2, h4⟩ := hset
    obtain ⟨x, hx, hd, _, hp⟩ := dump_eq t saved (by rw [h1]; exact Nat.zero_le _)
    have hstep : w.step (.reset saved) = .ok { w with
        s := if saved then { t with disk := some [(b "lastSyncedTime", .str x)] } else t, synced := false } := by
      unfold World.step
      dsimp only
      rw [apiSet_eq _ _ _ _ _ _ ht hd]
      rfl
    refine ⟨_, hstep, ?_, rfl⟩
    have key : ∀ q : St, q.lst = 0 → q.upd = 0 →
        (∀ rep, q.disk = some rep → ∃ x, rep = [(b "lastSyncedTime", .str x)] ∧
          (x = [] ∨ ∃ t, t ≠ 0 ∧ t ≤ w.real ∧ parseClock tps x = .ok (some t))) →
        Inv { w with s := q, synced := false } := by
      intro q hq1 hq2 hq3
      refine ⟨h.boot, ?_, ?_, (fun x => by cases x), (fun x => by cases x), hq3⟩
      · show q.upd ≤ w.mono; omega
      · intro hq; exact absurd hq1 hq
    cases saved with
    | false => exact key t h1 h2 (by rw [h4]; exact h.disk)
    | true =>
      refine key { t with disk := some [(b "lastSyncedTime", .str x)] } h1 h2 ?_
      intro rep hrep
      cases hrep
      exact ⟨x, rfl, Or.inl (hp h1)⟩
  | restart d =>
    have hb : w.real + d ≤ endOfTime := hb
    have key : ∀ q : St, q.upd = 0 → q.lst ≤ w.real → q.disk = w.s.disk →
        Inv ⟨q, w.real + d, w.real + d, false⟩ := by
      intro q hq1 hq2 hq3
      refine ⟨Nat.le_refl _, ?_, ?_, (fun x => by cases x), (fun x => by cases x), ?_⟩
      · show q.upd ≤ _; omega
      · intro _
        show q.lst + (w.real + d - (w.real + d) - q.upd) ≤ w.real + d
        omega
      · intro rep hrep
        replace hrep : q.disk = some rep := hrep
        rw [hq3] at hrep
        obtain ⟨x, hx, ht⟩ := h.disk rep hrep
        refine ⟨x, hx, ?_⟩
        rcases ht with ht | ⟨t, h1, h2, h3⟩
        · exact Or.inl ht
        · exact Or.inr ⟨t, h1, Nat.le_trans h2 (Nat.le_add_right _ _), h3⟩
    have hstep : ∀ q, restart w.s (World.reads ⟨w.s, w.real + d, w.real + d, false⟩) = .ok q →
        w.step (.restart d) = .ok ⟨q, w.real + d, w.real + d, false⟩ := by
      intro q hq
      unfold World.step
      dsimp only
      rw [hq]
      rfl
    cases hd : w.s.disk with
    | none => exact ⟨_, hstep _ (restart_idle _ _ (Or.inl hd)), key _ rfl (Nat.zero_le _) rfl, rfl⟩
    | some rep =>
      obtain ⟨x, hx, ht⟩ := h.disk rep hd
      subst hx
      rcases ht with rfl | ⟨t, h1, h2, h3⟩
      · exact ⟨_, hstep _ (restart_idle _ _ (Or.inr ⟨_, hd, by rw [decode_one, parse_empty]⟩)),
          key _ rfl (Nat.zero_le _) rfl, rfl⟩
      · obtain ⟨q, hq, q1, q2, q3, q4, q5, q6⟩ := setTime_eq { w.s with lst := 0, upd := 0, status := 0 } t
          (World.mono ⟨w.s, w.real + d, w.real + d, false⟩) (World.reads ⟨w.s, w.real + d, w.real + d, false⟩) h1
          (by unfold World.mono; dsimp only; omega) rfl rfl (by omega)
        refine ⟨_, hstep _ (restart_set _ q _ _ t hd (by rw [decode_one, h3]) hq), key _ ?_ ?_ q4, rfl⟩
        · show q.upd = 0
          rw [q2]; unfold World.mono; dsimp only; omega
        · show q.lst ≤ w.real
          omega

theorem run_inv (l : List Ev) : ∀ w, Inv w → 0 < w.real → w.real + (l.map Ev.length).sum ≤ endOfTime →
    ∃ w', w.run l = .ok w' ∧ Inv w' ∧ 0 < w'.real ∧ w'.real ≤ endOfTime := by
  induction l with
  | nil => intro w h h0 hb; exact ⟨w, rfl, h, h0, hb⟩
  | cons v l ih =>
    intro w h h0 hb
    rw [List.map_cons, List.sum_cons] at hb
    obtain ⟨w', hs, hi, hr⟩ := step_inv w h h0 v (by omega)
    obtain ⟨w'', hs', hi', h0', hb'⟩ := ih w' hi (by omega) (by omega)
    refine ⟨w'', ?_, hi', h0', hb'⟩
    unfold World.run
    rw [hs]
    exact hs'

/-- A device out of the box, at some real time. -/
def first (real : Nat) (hook : Bool) : World := ⟨⟨0, 0, 0, hook, none, []⟩, real, real, false⟩

theorem first_inv (real : Nat) (hook : Bool) : Inv (first real hook) :=
  ⟨Nat.le_refl _, Nat.zero_le _, fun h => absurd rfl h, (fun h => by cases h), (fun h => by cases h),
    (fun _ h => by cases h)⟩

/-- A device that is told the real time now and then, and is restarted now and then
(with or without its stored time being written), is never ahead of real time; from
each synchronisation to the next restart or reset it shows exactly the real time.
Until the year 9999. -/
theorem never_ahead (real : Nat) (hook : Bool) (h0 : 0 < real) (l : List Ev)
    (hb : real + (l.map Ev.length).sum ≤ endOfTime) :
    ∃ w, (first real hook).run l = .ok w ∧
      (w.s.lst ≠ 0 → ∃ t, time w.s (some w.mono) = .ok t ∧ w.s.lst ≤ t ∧ t ≤ w.real) ∧
      (w.synced = true → time w.s (some w.mono) = .ok w.real) := by
  obtain ⟨w, hr, hi, hp, hbb⟩ := run_inv l (first real hook) (first_inv real hook) h0 hb
  have hend : endOfTime < 9223372036854775808 := by unfold endOfTime; omega
  have hm : w.mono ≤ w.real := by unfold World.mono; omega
  have ht : w.s.lst ≠ 0 → time w.s (some w.mono) = .ok (w.s.lst + (w.mono - w.s.upd)) := by
    intro h
    have := hi.ahead h
    exact time_eq w.s w.mono h hi.upd (by omega) (by omega)
  refine ⟨w, hr, ?_, ?_⟩
  · intro h
    exact ⟨_, ht h, Nat.le_add_right _ _, hi.ahead h⟩
  · intro h
    have h1 := hi.active h
    rw [ht (by omega), hi.exact h]

example : ∃ w, (first 1700000000000000 true).run [.sync true, .pass 5000000, .restart 60000000, .pass 7, .sync false, .pass 9] = .ok w ∧
    w.synced = true := by
  obtain ⟨w, hr, _⟩ := never_ahead 1700000000000000 true (by decide)
    [.sync true, .pass 5000000, .restart 60000000, .pass 7, .sync false, .pass 9] (by decide)
  have h : (match (first 1700000000000000 true).run [.sync true, .pass 5000000, .restart 60000000, .pass 7, .sync false, .pass 9] with
    | .ok w => w.synced
    | .ub => false) = true := by decide +kernel
  rw [hr] at h
  exact ⟨w, hr, h⟩

/-- The time set and stored is the one a restart brings back, with the status "in sync from storage". -/
theorem restored (s : St) (lst m : Nat) (r : Reads) (h0 : lst ≠ 0) (hl : lst ≤ endOfTime) (hm : m < 9223372036854775808)
    (hr : r.set = some m) (hh : r.hook = some m) (r' : Reads) (m' : Nat) (hm' : m' < 9223372036854775808)
    (hr' : r'.set = some m') (hh' : r'.hook = some m') :
    ∃ t u, apiSet s lst r true = .ok (true, t) ∧ restart t r' = .ok u ∧ u.lst = lst ∧ u.status = 3 ∧ u.upd = m' := by
  have hend : endOfTime < 9223372036854775808 := by unfold endOfTime; omega
  obtain ⟨t, ht, h1, h2, h3, h4, h5, h6⟩ := setTime_eq s lst m r h0 hm hr hh (by omega)
  obtain ⟨x, hx, hd, hp, _⟩ := dump_eq t true (by rw [h1]; exact hl)
  have hset : apiSet s lst r true = .ok (true, { t with disk := some [(b "lastSyncedTime", .str x)] }) := by
    exact apiSet_eq _ _ _ _ _ _ ht hd
  obtain ⟨u, hu, u1, u2, u3, u4, _⟩ := setTime_eq
    { t with disk := some [(b "lastSyncedTime", .str x)], lst := 0, upd := 0, status := 0 } lst m' r' h0 hm' hr' hh' (by omega)
  refine ⟨_, { u with status := 3 }, hset, ?_, u1, rfl, u2⟩
  exact restart_set _ u r' _ lst rfl (by rw [decode_one, hp (by omega), h1]) hu

example : (1700000000000000 : Nat) ≠ 0 ∧ 1700000000000000 ≤ endOfTime := by decide

/-- FALSE: the time shown never goes back. After a restart it starts again at the
stored time. -/
theorem goes_back_false : ¬ ∀ (w w' : World) (v : Ev) (t t' : Nat), w.step v = .ok w' →
    time w.s (some w.mono) = .ok t → time w'.s (some w'.mono) = .ok t' → t ≤ t' := by
  intro h
  have hw : (⟨⟨1700000000000000, 0, 2, false, some [(b "lastSyncedTime", .str (b "2023-11-14T22:13:20Z"))], []⟩,
      1700000000005000, 1700000000000000, true⟩ : World).step (.restart 3) = .ok
      ⟨⟨1700000000000000, 0, 3, false, some [(b "lastSyncedTime", .str (b "2023-11-14T22:13:20Z"))], []⟩,
        1700000000005003, 1700000000005003, false⟩ := by
    have hp : parseClock tps (b "2023-11-14T22:13:20Z") = .ok (some 1700000000000000) := by decide +kernel
    unfold World.step
    dsimp only
    rw [restart_set _ ⟨1700000000000000, 0, 2, false, some [(b "lastSyncedTime", .str (b "2023-11-14T22:13:20Z"))], []⟩ _
      [(b "lastSyncedTime", .str (b "2023-11-14T22:13:20Z"))] 1700000000000000 rfl (by rw [decode_one, hp]) rfl]
    rfl
  have := h _ _ _ 1700000000005000 1700000000000000 hw (by decide) (by decide)
  revert this
  decide

/-- FALSE: the function for the system time is called with times the device was told
only. When the time is reset, it is called with the largest clock value there is. -/
theorem reset_sets_clock_false : ¬ ∀ (s t : St) (lst : Nat) (r : Reads), setTime s lst r = .ok (true, t) →
    ∀ v ∈ t.sys, v ∈ s.sys ∨ v = lst := by
  intro h
  have := h ⟨0, 0, 0, true, none, []⟩ ⟨0, 0, 2, true, none, [minusOne]⟩ 0 ⟨some 5, some 5, some 5⟩ rfl minusOne (by simp)
  rcases this with h | h
  · cases h
  · revert h; decide

/-! ### The resource -/

theorem encode_none (s : St) (secure : Bool) (now : Option Nat) (t : Nat) (h0 : s.lst ≠ 0) (h1 : time s now = .ok t)
    (h2 : t ≠ minusOne) (h3 : text t = .ok none) : encode s secure now = .ok none := by
  unfold encode timeText
  rw [if_neg h0, h1, Out.bind, if_neg h2, h3]
  rfl

/-- Clients without a secure connection see the time and nothing else; when it was
last set and the status are shown on secure connections only. -/
theorem insecure_get (s : St) (now : Option Nat) (rep : Rep) (h : encode s false now = .ok (some rep)) :
    ∃ t, rep = [(b "time", .str t)] ∧ timeText s now = .ok (some t) := by
  unfold encode at h
  cases ht : timeText s now with
  | ub => rw [ht] at h; cases h
  | ok x =>
    rw [ht] at h
    cases x with
    | none => cases h
    | some t =>
      have hs : statusProp s false = .ok [] := by
        unfold statusProp
        rw [if_pos (Or.inr rfl)]
      simp only [Out.bind, hs, Bool.false_eq_true, if_false, List.append_nil] at h
      cases h
      exact ⟨t, rfl, rfl⟩

/-- A POST that cannot be understood (no text `lastSyncedTime`, or not a time) is
refused with 4.00 and changes nothing. -/
theorem post_refused (s : St) (rep : Rep) (r : Reads) (saved : Bool) (h : decode rep = .ok none) :
    post s rep r saved = .ok (400, s) := by
  unfold post
  rw [h]
  rfl

example : decode [(b "time", .str (b "2023-11-14T22:13:20Z")), (b "lastSyncedTime", .int 5)] = .ok none := rfl

/-- A POST with a time sets, shows and stores it. Part of the full claim: the time is
between 1970 and 9999 and not 1970 itself (`epoch_false`, `bad_date_false`). -/
theorem post_partial (s : St) (rep : Rep) (lst m : Nat) (r : Reads) (h : decode rep = .ok (some lst)) (h0 : lst ≠ 0)
    (hl : lst ≤ endOfTime) (hm : m < 9223372036854775808) (hr : r.set = some m) (hh : r.hook = some m)
    (ha : r.answer = some m) :
    ∃ t x, post s rep r true = .ok (204, t) ∧ t.lst = lst ∧ t.upd = m ∧ t.status = 2 ∧
      t.disk = some [(b "lastSyncedTime", .str x)] ∧ parseClock tps x = .ok (some lst) ∧
      encode t true (some m) = .ok (some [(b "time", .str x), (b "status", .str (b "in-sync")), (b "lastSyncedTime", .str x)]) := by
  have hend : endOfTime < 9223372036854775808 := by unfold endOfTime; omega
  obtain ⟨t, ht, h1, h2, h3, h4, h5, h6⟩ := setTime_eq s lst m r h0 hm hr hh (by omega)
  obtain ⟨x, hx, hd, hp, _⟩ := dump_eq t true (by rw [h1]; exact hl)
  have henc : ∀ q : St, q.lst = lst → q.upd = m → q.status = 2 → lstText q = .ok (some x) →
      encode q true (some m) = .ok (some [(b "time", .str x), (b "status", .str (b "in-sync")), (b "lastSyncedTime", .str x)]) := by
    intro q q1 q2 q3 q4
    have htm : time q (some m) = .ok lst := by
      rw [time_eq q m (by omega) (by omega) hm (by omega), q1, q2, Nat.sub_self, Nat.add_zero]
    have htx : timeText q (some m) = .ok (some x) := by
      unfold timeText
      rw [if_neg (by omega), htm]
      show (if lst = minusOne then _ else text lst) = _
      rw [if_neg (by unfold minusOne; omega)]
      unfold lstText at q4
      rw [if_neg (by omega), q1] at q4
      exact q4
    have hsp : statusProp q true = .ok [(b "status", .str (b "in-sync"))] := by
      unfold statusProp
      rw [if_neg (by rw [q3]; simp), if_neg (by omega), q3]
      rfl
    simp only [encode, htx, hsp, q4, Out.bind, if_true]
    rfl
  refine ⟨{ t with disk := some [(b "lastSyncedTime", .str x)] }, x, ?_, h1, h2, h3, rfl, by rw [← h1]; exact hp (by omega),
    henc _ h1 h2 h3 (by unfold lstText at hx ⊢; exact hx)⟩
  simp only [post, h, ht, ha, henc t h1 h2 h3 hx, hd, Out.bind, Bool.not_true, Bool.false_eq_true, if_false, if_true]

example : decode [(b "lastSyncedTime", .str (b "2023-11-14T22:13:20Z"))] = .ok (some 1700000000000000) := by decide +kernel

/-- FALSE: a POST of a valid time that is answered with "changed" sets this time. The
first instant of 1970 resets it. -/
theorem epoch_false : ∃ t, post ⟨5, 0, 2, false, none, []⟩ [(b "lastSyncedTime", .str (b "1970-01-01T00:00:00Z"))]
    ⟨some 1, some 1, some 1⟩ true = .ok (204, t) ∧ time t (some 1) = .ok minusOne := by
  have hp : decode [(b "lastSyncedTime", .str (b "1970-01-01T00:00:00Z"))] = .ok (some 0) := by decide +kernel
  unfold post
  rw [hp]
  exact ⟨_, rfl, rfl⟩

/-- FALSE: a POST answered with an error changes nothing. A time before 1970 is
taken for one in the far future that has no text: the answer is 5.00, but the time is
set, and from then on it cannot be read. -/
theorem bad_date_false : ∃ t, post ⟨5, 0, 2, false, none, []⟩ [(b "lastSyncedTime", .str (b "1969-12-31T23:59:59Z"))]
    ⟨some 1, some 1, some 1⟩ true = .ok (500, t) ∧ t.lst = 18446744073709551616 - 1000000 ∧
    encode t true (some 2) = .ok none := by
  have hp : decode [(b "lastSyncedTime", .str (b "1969-12-31T23:59:59Z"))] =
      .ok (some (18446744073709551616 - 1000000)) := by decide +kernel
  have h0 : text (18446744073709551616 - 1000000) = .ok none := by decide +kernel
  have h1 : text (18446744073709551616 - 1000000 + 1) = .ok none := by decide +kernel
  have hs : setTime ⟨5, 0, 2, false, none, []⟩ (18446744073709551616 - 1000000) ⟨some 1, some 1, some 1⟩ =
      .ok (true, ⟨18446744073709551616 - 1000000, 1, 2, false, none, []⟩) := by rfl
  have e1 := encode_none ⟨18446744073709551616 - 1000000, 1, 2, false, none, []⟩ true (some 1)
    (18446744073709551616 - 1000000) (by decide) (by decide) (by decide) h0
  have e2 := encode_none ⟨18446744073709551616 - 1000000, 1, 2, false, none, []⟩ true (some 2)
    (18446744073709551616 - 1000000 + 1) (by decide) (by decide) (by decide) h1
  refine ⟨⟨18446744073709551616 - 1000000, 1, 2, false, none, []⟩, ?_, rfl, e2⟩
  unfold post
  rw [hp, Out.bind]
  show (setTime ⟨5, 0, 2, false, none, []⟩ (18446744073709551616 - 1000000) ⟨some 1, some 1, some 1⟩).bind _ = _
  rw [hs, Out.bind, if_neg (by decide), e1]
  rfl

/-- The three statuses and their names correspond to each other. -/
theorem status_names (v : Nat) (t : List UInt8) : statusText v = some t ↔ statusOf t = some v := by
  constructor
  · intro h
    match v, h with
    | 1, h => cases h; decide
    | 2, h => cases h; decide
    | 3, h => cases h; decide
  · intro h
    unfold statusOf at h
    by_cases h1 : t = b "in-sync"
    · rw [if_pos h1] at h; cases h; rw [h1]; rfl
    · rw [if_neg h1] at h
      by_cases h2 : t = b "syncing"
      · rw [if_pos h2] at h; cases h; rw [h2]; rfl
      · rw [if_neg h2] at h
        by_cases h3 : t = b "in-sync-from-storage"
        · rw [if_pos h3] at h; cases h; rw [h3]; rfl
        · rw [if_neg h3] at h; cases h

/-- If the clock cannot be read (the call fails, or gives the value that means failure) a
new time is not accepted: the device keeps its time, nothing is stored, and a POST is
answered with 5.00. -/
theorem clock_failed (s : St) (rep : Rep) (lst : Nat) (r : Reads) (saved : Bool) (h0 : lst ≠ 0)
    (hr : r.set = none ∨ r.set = some minusOne) (h : decode rep = .ok (some lst)) :
    apiSet s lst r saved = .ok (false, s) ∧ post s rep r saved = .ok (500, s) := by
  have hs : setTime s lst r = .ok (false, s) := by
    unfold setTime
    rw [if_neg h0]
    rcases hr with hr | hr <;> rw [hr]
    simp only [if_true]
  constructor
  · unfold apiSet; rw [hs]; rfl
  · unfold post; rw [h]
    simp only [Out.bind, hs, Bool.not_false, if_true]

example : decode [(b "lastSyncedTime", .str (b "2023-11-14T22:13:20Z"))] = .ok (some 1700000000000000) ∧
    (1700000000000000 : Nat) ≠ 0 := by
  constructor
  · decide +kernel
  · decide

theorem lastLst_append (l : Rep) (x : List UInt8) : lastLst (l ++ [(b "lastSyncedTime", .str x)]) = some x := by
  induction l with
  | nil => rfl
  | cons a l ih =>
    obtain ⟨n, v⟩ := a
    cases v <;> simp only [List.cons_append, lastLst, ih]

/-- If a payload has the property more than once, the last one counts, whatever is before
it; properties of other names or types count for nothing. -/
theorem last_wins (l : Rep) (x : List UInt8) :
    decode (l ++ [(b "lastSyncedTime", .str x)]) = parseClock tps x ∧
    ∀ n v, (n ≠ b "lastSyncedTime" ∨ ∀ t, v ≠ .str t) →
      decode (l ++ [(b "lastSyncedTime", .str x), (n, v)]) = parseClock tps x := by
  constructor
  · unfold decode; rw [lastLst_append]
  · intro n v h
    have : lastLst (l ++ [(b "lastSyncedTime", .str x), (n, v)]) = some x := by
      induction l with
      | nil =>
        have hv : lastLst [(n, v)] = none := by
          cases v with
          | str t =>
            have : n ≠ b "lastSyncedTime" := by
              rcases h with h | h
              · exact h
              · exact absurd rfl (h t)
            simp only [lastLst, this, if_false]
          | _ => rfl
        show lastLst ((b "lastSyncedTime", .str x) :: [(n, v)]) = some x
        rw [lastLst, hv]; simp
      | cons a l ih =>
        obtain ⟨m, w⟩ := a
        cases w <;> simp only [List.cons_append, lastLst, ih]
    unfold decode; rw [this]

end Verif.PlgdTime
