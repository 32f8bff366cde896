import Verif.Etimer.Model
import Verif.Timer.Props
/-! Property theorems for `util/oc_etimer.c` (C11). -/
namespace Verif.Etimer
open Verif.Timer Verif.Process

/-- Calls on the event timers.  `pollOnce` is one round of the poll loop of the
etimer process, `take` the delivery of the oldest queued event. -/
inductive Op where
  | set (i d cur : Nat)
  | resetNew (i d cur : Nat)
  | reset (i cur : Nat)
  | restart (i cur : Nat)
  | adjust (i : Nat) (diff : Int)
  | stop (i : Nat)
  | exited (p : Nat)
  | pollOnce
  | take

/-- One call at time `now` (with a current process); the second component is the
timer whose event was posted. -/
def exec (lim : Option Nat) (s : St) (now : Nat) : Op → Out (St × Option Nat)
  | .set i d cur => do let s ← etSet s i d (some cur) now; return (s, none)
  | .resetNew i d cur => do let s ← etResetNew s i d (some cur) now; return (s, none)
  | .reset i cur => do let s ← etReset s i (some cur) now; return (s, none)
  | .restart i cur => do let s ← etRestart s i (some cur) now; return (s, none)
  | .adjust i diff => .ok (etAdjust s i diff now, none)
  | .stop i => .ok (etStop s i now, none)
  | .exited p => .ok (exited s p, none)
  | .pollOnce => .ok (pollOnce lim s now)
  | .take => .ok ({ s with queue := s.queue.tail }, none)

/-- Specification: the point in time a timer is due. -/
def due (t : Timer) : Nat := t.start + t.interval

/-- The due time resulting from the call stays in the range of the clock. -/
def Fits (s : St) (now : Nat) : Op → Prop
  | .set _ d _ => now + d < W
  | .resetNew i d _ => due (s.et i).timer + d < W
  | .reset i _ => due (s.et i).timer + (s.et i).timer.interval < W
  | .restart i _ => now + (s.et i).timer.interval < W
  | .adjust i diff => 0 ≤ (s.et i).timer.start + diff ∧ (s.et i).timer.start + diff + (s.et i).timer.interval < W
  | _ => True

/-- Invariant; `clk` is the time of the last call. -/
structure Inv (s : St) (clk : Nat) : Prop where
  nodup : s.list.Nodup
  owned : ∀ t ∈ s.list, (s.et t).p ≠ none
  fits : ∀ t ∈ s.list, due (s.et t).timer < W
  wake : ∀ t ∈ s.list, s.nextExp ≤ max clk (due (s.et t).timer)

theorem minUntil_le (et : Nat → ET) (now : Nat) : ∀ (l : List Nat) (d : Nat),
    minUntil et now d l ≤ d ∧ ∀ t ∈ l, minUntil et now d l ≤ untilT (et t).timer now
  | [], d => by simp [minUntil]
  | t :: r, d => by
      simp only [minUntil]
      obtain ⟨h1, h2⟩ := minUntil_le et now r
        (if untilT (et t).timer now < d then untilT (et t).timer now else d)
      have h3 : (if untilT (et t).timer now < d then untilT (et t).timer now else d) ≤ d ∧
          (if untilT (et t).timer now < d then untilT (et t).timer now else d) ≤ untilT (et t).timer now := by
        split <;> omega
      refine ⟨by omega, ?_⟩
      · intro x hx
        rcases List.mem_cons.mp hx with rfl | hx
        · omega
        · exact h2 x hx

theorem minUntil_mem (et : Nat → ET) (now : Nat) : ∀ (l : List Nat) (d : Nat),
    minUntil et now d l = d ∨ ∃ t ∈ l, minUntil et now d l = untilT (et t).timer now
  | [], d => .inl rfl
  | t :: r, d => by
      simp only [minUntil]
      rcases minUntil_mem et now r (if untilT (et t).timer now < d then untilT (et t).timer now else d) with h | ⟨x, hx, h⟩
      · rw [h]
        split
        · exact .inr ⟨t, by simp, rfl⟩
        · exact .inl rfl
      · exact .inr ⟨x, by simp [hx], h⟩

theorem updateTime_list (s : St) (now : Nat) : (updateTime s now).list = s.list := by
  unfold updateTime; split <;> rfl
theorem updateTime_et (s : St) (now : Nat) : (updateTime s now).et = s.et := by
  unfold updateTime; split <;> rfl
theorem updateTime_queue (s : St) (now : Nat) : (updateTime s now).queue = s.queue := by
  unfold updateTime; split <;> rfl
theorem updateTime_poll (s : St) (now : Nat) : (updateTime s now).pollReq = s.pollReq := by
  unfold updateTime; split <;> rfl

theorem ok_of_due {t : Timer} (h : due t < W) : Ok t := by
  unfold due at h; exact ⟨by omega, by omega⟩

/-- The recomputed wake-up time is the earliest due time, or now. -/
theorem updateTime_wake (s : St) (now : Nat) (hn : now + 1 < W)
    (hf : ∀ t ∈ s.list, due (s.et t).timer < W) :
    (∀ t ∈ s.list, (updateTime s now).nextExp ≤ max now (due (s.et t).timer)) ∧
    (s.list ≠ [] → ∃ t ∈ s.list, (updateTime s now).nextExp = max now (due (s.et t).timer)) := by
  have hu : ∀ t ∈ s.list, now + untilT (s.et t).timer now = max now (due (s.et t).timer) := by
    intro t ht
    have h := (until_spec (s.et t).timer now (ok_of_due (hf t ht)) hn (hf t ht)).1
    rw [h]; unfold due; omega
  cases hl : s.list with
  | nil => simp
  | cons a r =>
    have hval : ∃ t ∈ s.list, minUntil s.et now (untilT (s.et a).timer now) r = untilT (s.et t).timer now := by
      rcases minUntil_mem s.et now r (untilT (s.et a).timer now) with h | ⟨x, hx, h⟩
      · exact ⟨a, by simp [hl], h⟩
      · exact ⟨x, by simp [hl, hx], h⟩
    obtain ⟨x, hx, hxe⟩ := hval
    have hlt : now + minUntil s.et now (untilT (s.et a).timer now) r < W := by
      rw [hxe, hu x hx]
      have := hf x hx
      omega
    have he : (updateTime s now).nextExp = now + minUntil s.et now (untilT (s.et a).timer now) r := by
      simp only [updateTime, hl]
      exact Nat.mod_eq_of_lt hlt
    obtain ⟨m1, m2⟩ := minUntil_le s.et now r (untilT (s.et a).timer now)
    refine ⟨?_, fun _ => ⟨x, by rw [← hl]; exact hx, by rw [he, hxe, hu x hx]⟩⟩
    intro t ht
    rw [he]
    rw [← hl] at ht
    rw [← hu t ht]
    rw [hl] at ht
    rcases List.mem_cons.mp ht with rfl | ht
    · omega
    · have := m2 t ht; omega

theorem inv_update (s : St) (now : Nat) (hn : now + 1 < W) (h1 : s.list.Nodup)
    (h2 : ∀ t ∈ s.list, (s.et t).p ≠ none) (h3 : ∀ t ∈ s.list, due (s.et t).timer < W) :
    Inv (updateTime s now) now := by
  constructor
  · rw [updateTime_list]; exact h1
  · rw [updateTime_list, updateTime_et]; exact h2
  · rw [updateTime_list, updateTime_et]; exact h3
  · rw [updateTime_list, updateTime_et]; exact (updateTime_wake s now hn h3).1

theorem inv_mono (s : St) (clk now : Nat) (h : Inv s clk) (hle : clk ≤ now) : Inv s now :=
  ⟨h.nodup, h.owned, h.fits, fun t ht => by have := h.wake t ht; omega⟩

/-- What one round of polling does. -/
theorem pollWalk_spec (lim : Option Nat) (now : Nat) : ∀ (rest pre : List Nat) (s : St),
    (∃ b, pollWalk lim now s pre rest = ({ s with pollReq := b }, none) ∧
      (∀ t ∈ rest, expired (s.et t).timer now = true → lim = some s.queue.length ∧ b = true) ∧
      (s.pollReq = true → b = true)) ∨
    (∃ a t c, rest = a ++ t :: c ∧ expired (s.et t).timer now = true ∧
      lim ≠ some s.queue.length ∧
      pollWalk lim now s pre rest =
        (updateTime ({ s with list := pre ++ a ++ c, queue := s.queue ++ [(⟨(s.et t).p, evTimer, t⟩ : Ev)] }.upd t
          fun e => { e with p := none }) now, some t))
  | [], pre, s => .inl ⟨s.pollReq, rfl, by simp, id⟩
  | t :: r, pre, s => by
      simp only [pollWalk]
      by_cases he : expired (s.et t).timer now = true
      · simp only [he, Bool.not_true, Bool.false_eq_true, ↓reduceIte]
        by_cases hl : lim = some s.queue.length
        · rw [if_pos hl]
          rcases pollWalk_spec lim now r (pre ++ [t]) { s with pollReq := true } with ⟨b, h1, h2, h3⟩ | ⟨a, x, c, h1, h2, h3, h4⟩
          · refine .inl ⟨b, h1, ?_, fun _ => h3 rfl⟩
            intro y hy hye
            exact ⟨hl, h3 rfl⟩
          · exact absurd hl h3
        · simp only [hl, ↓reduceIte]
          exact .inr ⟨[], t, r, rfl, he, hl, by simp [St.upd]⟩
      · simp only [he, Bool.not_false, ↓reduceIte]
        rcases pollWalk_spec lim now r (pre ++ [t]) s with ⟨b, h1, h2, h3⟩ | ⟨a, x, c, h1, h2, h3, h4⟩
        · refine .inl ⟨b, h1, ?_, h3⟩
          intro y hy hye
          rcases List.mem_cons.mp hy with rfl | hy
          · exact absurd hye he
          · exact h2 y hy hye
        · exact .inr ⟨t :: a, x, c, by simp [h1], h2, h3, by rw [h4]; simp⟩

theorem adjust_toNat (a : Nat) (d : Int) (h0 : 0 ≤ (a : Int) + d) (hw : (a : Int) + d < W) :
    ((((a : Int) + d) % (W : Int)).toNat : Int) = a + d := by
  rw [Int.emod_eq_of_lt h0 hw]
  exact Int.toNat_of_nonneg h0

/-- C11: arming a timer. -/
theorem addTimer_inv (s : St) (clk now : Nat) (i cur : Nat) (g : Timer → Timer)
    (h : Inv s clk) (hn : now + 1 < W) (hf : due (g (s.et i).timer) < W) :
    ∃ s', addTimer (s.upd i fun e => { e with timer := g e.timer }) i (some cur) now = .ok s' ∧
      Inv s' now ∧ s'.list = (if i ∈ s.list then s.list else i :: s.list) ∧
      s'.queue = s.queue ∧ s'.pollReq = true ∧
      (∀ j, (s'.et j).timer = if j = i then g (s.et i).timer else (s.et j).timer) ∧
      (∀ j, (s'.et j).p = if j = i then some cur else (s.et j).p) := by
  by_cases hi : i ∈ s.list
  · have hp := h.owned i hi
    refine ⟨_, by simp only [addTimer, St.upd, ↓reduceIte, hp, hi, ne_eq, not_false_iff, and_self]; rfl, ?_, ?_, ?_, ?_, ?_, ?_⟩
    · refine inv_update _ _ hn h.nodup ?_ ?_
      · intro t ht
        by_cases hti : t = i
        · simp [hti]
        · simp only [hti, ↓reduceIte]; exact h.owned t ht
      · intro t ht
        by_cases hti : t = i
        · subst hti; simpa using hf
        · simp only [hti, ↓reduceIte]; exact h.fits t ht
    · rw [updateTime_list]; simp [hi]
    · rw [updateTime_queue]
    · rw [updateTime_poll]
    · intro j
      rw [updateTime_et]
      by_cases hj : j = i
      · simp [hj]
      · simp [hj]
    · intro j
      rw [updateTime_et]
      by_cases hj : j = i <;> simp [hj]
  · refine ⟨_, by simp only [addTimer, St.upd, ↓reduceIte, hi, ne_eq, and_false]; rfl, ?_, ?_, ?_, ?_, ?_, ?_⟩
    · refine inv_update _ _ hn ?_ ?_ ?_
      · exact List.nodup_cons.mpr ⟨hi, h.nodup⟩
      · intro t ht
        by_cases hti : t = i
        · simp [hti]
        · simp only [hti, ↓reduceIte]
          exact h.owned t ((List.mem_cons.mp ht).resolve_left hti)
      · intro t ht
        by_cases hti : t = i
        · subst hti; simpa using hf
        · simp only [hti, ↓reduceIte]
          exact h.fits t ((List.mem_cons.mp ht).resolve_left hti)
    · rw [updateTime_list]; simp [hi]
    · rw [updateTime_queue]
    · rw [updateTime_poll]
    · intro j
      rw [updateTime_et]
      by_cases hj : j = i
      · simp [hj]
      · simp [hj]
    · intro j
      rw [updateTime_et]
      by_cases hj : j = i <;> simp [hj]

/-- The timer armed by a call. -/
def arms : Op → Option Nat
  | .set i _ _ | .resetNew i _ _ | .reset i _ | .restart i _ => some i
  | _ => none

/-- Everything one call may do, in terms of the pending timers. -/
theorem exec_step (lim : Option Nat) (s : St) (clk now : Nat) (o : Op) (h : Inv s clk)
    (hle : clk ≤ now) (hn : now + 1 < W) (hf : Fits s now o) :
    ∃ s' r, exec lim s now o = .ok (s', r) ∧ Inv s' now ∧
      (∀ t, r = some t → t ∈ s.list ∧ t ∉ s'.list ∧ due (s.et t).timer ≤ now ∧
        s'.queue = s.queue ++ [⟨(s.et t).p, evTimer, t⟩] ∧ (s.et t).p ≠ none) ∧
      (∀ t, t ∈ s'.list → t ∈ s.list ∨ arms o = some t) ∧
      (∀ t ∈ s.list, t ∈ s'.list ∨ r = some t ∨ o = .stop t ∨ ∃ p, o = .exited p ∧ (s.et t).p = some p) ∧
      (r = none → o ≠ .take → s'.queue = s.queue) := by
  cases o with
  | set i d cur =>
    obtain ⟨s', h1, h2, h3, h4, -⟩ := addTimer_inv s clk now i cur (fun _ => Timer.set d now) h hn hf
    refine ⟨s', none, by simp [exec, etSet, h1], h2, by simp, ?_, ?_, fun _ _ => h4⟩
    · intro t ht; rw [h3] at ht; split at ht
      · exact .inl ht
      · rcases List.mem_cons.mp ht with rfl | ht
        · exact .inr rfl
        · exact .inl ht
    · intro t ht; left; rw [h3]; split
      · exact ht
      · exact List.mem_cons_of_mem _ ht
  | resetNew i d cur =>
    have hfit : due (s.et i).timer + d < W := hf
    have hr : (reset (s.et i).timer).start = due (s.et i).timer := by
      simp only [reset]; exact Nat.mod_eq_of_lt (by unfold due at hfit; omega)
    obtain ⟨s', h1, h2, h3, h4, -⟩ := addTimer_inv s clk now i cur (fun t => { reset t with interval := d }) h hn
      (by simp only [due, hr]; exact hfit)
    refine ⟨s', none, by simp [exec, etResetNew, h1], h2, by simp, ?_, ?_, fun _ _ => h4⟩
    · intro t ht; rw [h3] at ht; split at ht
      · exact .inl ht
      · rcases List.mem_cons.mp ht with rfl | ht
        · exact .inr rfl
        · exact .inl ht
    · intro t ht; left; rw [h3]; split
      · exact ht
      · exact List.mem_cons_of_mem _ ht
  | reset i cur =>
    have hfit : due (s.et i).timer + (s.et i).timer.interval < W := hf
    have hr : (reset (s.et i).timer).start = due (s.et i).timer := by
      simp only [reset]; exact Nat.mod_eq_of_lt (by unfold due at hfit; omega)
    obtain ⟨s', h1, h2, h3, h4, -⟩ := addTimer_inv s clk now i cur Timer.reset h hn
      (by simp only [due, hr]; exact hfit)
    refine ⟨s', none, by simp [exec, etReset, h1], h2, by simp, ?_, ?_, fun _ _ => h4⟩
    · intro t ht; rw [h3] at ht; split at ht
      · exact .inl ht
      · rcases List.mem_cons.mp ht with rfl | ht
        · exact .inr rfl
        · exact .inl ht
    · intro t ht; left; rw [h3]; split
      · exact ht
      · exact List.mem_cons_of_mem _ ht
  | restart i cur =>
    obtain ⟨s', h1, h2, h3, h4, -⟩ := addTimer_inv s clk now i cur (fun t => Timer.restart t now) h hn hf
    refine ⟨s', none, by simp [exec, etRestart, h1], h2, by simp, ?_, ?_, fun _ _ => h4⟩
    · intro t ht; rw [h3] at ht; split at ht
      · exact .inl ht
      · rcases List.mem_cons.mp ht with rfl | ht
        · exact .inr rfl
        · exact .inl ht
    · intro t ht; left; rw [h3]; split
      · exact ht
      · exact List.mem_cons_of_mem _ ht
  | adjust i diff =>
    obtain ⟨hf0, hf1⟩ := hf
    refine ⟨_, none, rfl, ?_, by simp, ?_, ?_, ?_⟩
    · refine inv_update _ _ hn h.nodup ?_ ?_
      · intro t ht
        by_cases hti : t = i
        · subst hti; simpa [St.upd] using h.owned t ht
        · simp only [St.upd, hti, ↓reduceIte]; exact h.owned t ht
      · intro t ht
        by_cases hti : t = i
        · subst hti
          have := adjust_toNat (s.et t).timer.start diff hf0 (by omega)
          simp only [St.upd, ↓reduceIte, due]
          omega
        · simp only [St.upd, hti, ↓reduceIte]; exact h.fits t ht
    · intro t ht; left; simp only [etAdjust, updateTime_list] at ht; exact ht
    · intro t ht; left; simp only [etAdjust, updateTime_list]; exact ht
    · intro _ _; simp only [etAdjust, updateTime_queue]; rfl
  | stop i =>
    refine ⟨_, none, rfl, ?_, by simp, ?_, ?_, ?_⟩
    · unfold etStop
      by_cases hi : i ∈ s.list
      · have hu := inv_update { s with list := s.list.filter (· ≠ i) } now hn
          (h.nodup.sublist List.filter_sublist)
          (fun t ht => h.owned t (List.mem_filter.mp ht).1) (fun t ht => h.fits t (List.mem_filter.mp ht).1)
        rw [if_pos hi]
        have hne : ∀ t ∈ (updateTime { s with list := s.list.filter (· ≠ i) } now).list, t ≠ i := by
          intro t ht
          rw [updateTime_list] at ht
          simpa using (List.mem_filter.mp ht).2
        refine ⟨hu.nodup, ?_, ?_, ?_⟩
        · intro t ht; simp only [St.upd, hne t ht, ↓reduceIte]; exact hu.owned t ht
        · intro t ht; simp only [St.upd, hne t ht, ↓reduceIte]; exact hu.fits t ht
        · intro t ht; simp only [St.upd, hne t ht, ↓reduceIte]; exact hu.wake t ht
      · rw [if_neg hi]
        have hne : ∀ t ∈ s.list, t ≠ i := fun t ht e => hi (e ▸ ht)
        have hu := inv_mono s clk now h hle
        refine ⟨hu.nodup, ?_, ?_, ?_⟩
        · intro t ht; simp only [St.upd, hne t ht, ↓reduceIte]; exact hu.owned t ht
        · intro t ht; simp only [St.upd, hne t ht, ↓reduceIte]; exact hu.fits t ht
        · intro t ht; simp only [St.upd, hne t ht, ↓reduceIte]; exact hu.wake t ht
    · intro t ht
      left
      simp only [etStop, St.upd] at ht
      split at ht
      · rw [updateTime_list] at ht; exact (List.mem_filter.mp ht).1
      · exact ht
    · intro t ht
      by_cases hti : t = i
      · exact .inr (.inr (.inl (by rw [hti])))
      · left
        simp only [etStop, St.upd]
        split
        · rw [updateTime_list]; exact List.mem_filter.mpr ⟨ht, by simpa using hti⟩
        · exact ht
    · intro _ _
      simp only [etStop, St.upd]
      split
      · rw [updateTime_queue]
      · rfl
  | exited p =>
    have hu := inv_mono s clk now h hle
    refine ⟨_, none, rfl, ⟨?_, ?_, ?_, ?_⟩, by simp, ?_, ?_, fun _ _ => rfl⟩
    · exact h.nodup.sublist List.filter_sublist
    · intro t ht; exact h.owned t (List.mem_filter.mp ht).1
    · intro t ht; exact h.fits t (List.mem_filter.mp ht).1
    · intro t ht; exact hu.wake t (List.mem_filter.mp ht).1
    · intro t ht; exact .inl (List.mem_filter.mp ht).1
    · intro t ht
      by_cases hp : (s.et t).p = some p
      · exact .inr (.inr (.inr ⟨p, rfl, hp⟩))
      · exact .inl (List.mem_filter.mpr ⟨ht, by simpa using hp⟩)
  | pollOnce =>
    have hu := inv_mono s clk now h hle
    rcases pollWalk_spec lim now s.list [] s with ⟨b, h1, h2, h3⟩ | ⟨a, t, c, h1, h2, h3, h4⟩
    · refine ⟨{ s with pollReq := b }, none, ?_, ⟨hu.nodup, hu.owned, hu.fits, hu.wake⟩, by simp, fun t ht => .inl ht,
        fun t ht => .inl ht, fun _ _ => rfl⟩
      simp only [exec, pollOnce, h1]
    · have hnd := h.nodup
      rw [h1] at hnd
      have hnd' := List.nodup_append.mp hnd
      have hnc := List.nodup_cons.mp hnd'.2.1
      have htl : t ∈ s.list := by rw [h1]; simp
      have hta : t ∉ a := fun ha => hnd'.2.2 t ha t (by simp) rfl
      have hmem : ∀ x, x ∈ a ++ c → x ∈ s.list ∧ x ≠ t := by
        intro x hx
        rcases List.mem_append.mp hx with hx | hx
        · exact ⟨by rw [h1]; simp [hx], fun e => hta (e ▸ hx)⟩
        · exact ⟨by rw [h1]; simp [hx], fun e => hnc.1 (e ▸ hx)⟩
      refine ⟨_, some t, by simp only [exec, pollOnce, h4]; rfl, ?_, ?_, ?_, ?_, by simp⟩
      · refine inv_update _ _ hn ?_ ?_ ?_
        · simp only [St.upd, List.nil_append]
          exact hnd.sublist (List.Sublist.append (List.Sublist.refl _) (List.sublist_cons_self _ _))
        · intro x hx
          simp only [St.upd, List.nil_append] at hx ⊢
          simp only [(hmem x hx).2, ↓reduceIte]
          exact h.owned x (hmem x hx).1
        · intro x hx
          simp only [St.upd, List.nil_append] at hx ⊢
          simp only [(hmem x hx).2, ↓reduceIte]
          exact h.fits x (hmem x hx).1
      · rintro x hx
        cases hx
        refine ⟨htl, ?_, ?_, ?_, h.owned t htl⟩
        · rw [updateTime_list]
          simp only [St.upd, List.nil_append]
          intro hx; exact (hmem t hx).2 rfl
        · exact (expired_iff _ _ (ok_of_due (h.fits t htl)) hn).mp h2
        · rw [updateTime_queue]; rfl
      · intro x hx
        rw [updateTime_list] at hx
        simp only [St.upd, List.nil_append] at hx
        exact .inl (hmem x hx).1
      · intro x hx
        rw [updateTime_list]
        simp only [St.upd, List.nil_append]
        rw [h1] at hx
        rcases List.mem_append.mp hx with hx | hx
        · exact .inl (List.mem_append_left _ hx)
        · rcases List.mem_cons.mp hx with rfl | hx
          · exact .inr (.inl rfl)
          · exact .inl (List.mem_append_right _ hx)
  | take =>
    have hu := inv_mono s clk now h hle
    exact ⟨_, none, rfl, ⟨hu.nodup, hu.owned, hu.fits, hu.wake⟩, by simp, fun t ht => .inl ht, fun t ht => .inl ht,
      fun _ h => absurd rfl h⟩

/-- Histories: calls at non-decreasing times whose due times stay in range.  The
log records the posted timers with the timer value and the time of posting. -/
inductive Runs (lim : Option Nat) : St → Nat → List Op → List (Nat × Timer × Nat) → St → Nat → Prop
  | nil (s clk) : Runs lim s clk [] [] s clk
  | cons {s clk now o s' r os log s'' clk''} : clk ≤ now → now + 1 < W → Fits s now o →
      exec lim s now o = .ok (s', r) → Runs lim s' now os log s'' clk'' →
      Runs lim s clk (o :: os)
        ((match r with | some t => [(t, (s.et t).timer, now)] | none => []) ++ log) s'' clk''

/-- C11, invariant: along every history there is no undefined behaviour and the
invariant holds (see `next_wakeup`). -/
theorem runs_inv (lim : Option Nat) {s clk os log s' clk'} (h : Inv s clk)
    (hr : Runs lim s clk os log s' clk') : Inv s' clk' := by
  induction hr with
  | nil => exact h
  | cons h1 h2 h3 h4 _ ih =>
    obtain ⟨s1, r1, e1, e2, -⟩ := exec_step lim _ _ _ _ h h1 h2 h3
    rw [h4] at e1
    simp only [Out.ok.injEq, Prod.mk.injEq] at e1
    obtain ⟨rfl, rfl⟩ := e1
    exact ih e2

theorem runs_progress (lim : Option Nat) (s : St) (clk now : Nat) (o : Op) (h : Inv s clk)
    (hle : clk ≤ now) (hn : now + 1 < W) (hf : Fits s now o) : exec lim s now o ≠ .ub := by
  obtain ⟨s1, r1, e1, -⟩ := exec_step lim s clk now o h hle hn hf
  rw [e1]; simp

/-- C11: no event is posted before the timer is due. -/
theorem never_early (lim : Option Nat) {s clk os log s' clk'} (h : Inv s clk)
    (hr : Runs lim s clk os log s' clk') : ∀ e ∈ log, due e.2.1 ≤ e.2.2 := by
  induction hr with
  | nil => simp
  | cons h1 h2 h3 h4 _ ih =>
    obtain ⟨s1, r1, e1, e2, e3, -⟩ := exec_step lim _ _ _ _ h h1 h2 h3
    rw [h4] at e1
    simp only [Out.ok.injEq, Prod.mk.injEq] at e1
    obtain ⟨rfl, rfl⟩ := e1
    intro e he
    rcases List.mem_append.mp he with he | he
    · split at he
      · simp only [List.mem_singleton] at he
        subst he
        exact (e3 _ rfl).2.2.1
      · simp at he
    · exact ih e2 e he

/-- C11: a timer event is posted at most once per arming: the number of events
posted for a timer, plus one if it is still pending, never exceeds the number of
times it was armed (plus one if it was pending at the start). -/
theorem once_per_arming (lim : Option Nat) {s clk os log s' clk'} (i : Nat) (h : Inv s clk)
    (hr : Runs lim s clk os log s' clk') :
    (log.filter (·.1 = i)).length + (if i ∈ s'.list then 1 else 0) ≤
      (os.filter (fun o => arms o = some i)).length + (if i ∈ s.list then 1 else 0) := by
  induction hr with
  | nil => simp
  | @cons s clk now o s' r os log s'' clk'' h1 h2 h3 h4 _ ih =>
    obtain ⟨s1, r1, e1, e2, e3, e4, -⟩ := exec_step lim _ _ _ _ h h1 h2 h3
    rw [h4] at e1
    simp only [Out.ok.injEq, Prod.mk.injEq] at e1
    obtain ⟨rfl, rfl⟩ := e1
    have ih := ih e2
    rw [List.filter_append, List.length_append, List.filter_cons]
    have key : ((match r with | some t => [(t, (s.et t).timer, now)] | none => []).filter
        (fun e : Nat × Timer × Nat => decide (e.1 = i))).length + (if i ∈ s'.list then 1 else 0) ≤
        (if arms o = some i then 1 else 0) + (if i ∈ s.list then 1 else 0) := by
      cases r with
      | none =>
        simp only [List.filter_nil, List.length_nil, Nat.zero_add]
        by_cases hi : i ∈ s'.list
        · rcases e4 i hi with h | h <;> simp [hi, h]
        · simp [hi]
      | some t =>
        by_cases hti : t = i
        · subst hti
          obtain ⟨f1, f2, -⟩ := e3 t rfl
          simp [f1, f2]
        · simp only [hti, decide_false, Bool.false_eq_true, not_false_iff, List.filter_cons_of_neg,
            List.filter_nil, List.length_nil, Nat.zero_add]
          by_cases hi : i ∈ s'.list
          · rcases e4 i hi with h | h <;> simp [hi, h]
          · simp [hi]
    by_cases ha : arms o = some i
    · simp only [ha, decide_true, ↓reduceIte, List.length_cons] at key ⊢
      omega
    · simp only [ha, decide_false, Bool.false_eq_true, ↓reduceIte] at key ⊢
      omega

/-- C11: a pending timer stays pending until its event is posted, it is stopped or
its process exits: no timer is lost. -/
theorem never_lost (lim : Option Nat) {s clk os log s' clk'} (i : Nat) (h : Inv s clk)
    (hr : Runs lim s clk os log s' clk') (hi : i ∈ s.list)
    (hs : ∀ o ∈ os, o ≠ .stop i ∧ ∀ p, o ≠ .exited p) :
    i ∈ s'.list ∨ ∃ t now, (i, t, now) ∈ log := by
  induction hr with
  | nil => exact .inl hi
  | cons h1 h2 h3 h4 _ ih =>
    obtain ⟨s1, r1, e1, e2, e3, e4, e5, -⟩ := exec_step lim _ _ _ _ h h1 h2 h3
    rw [h4] at e1
    simp only [Out.ok.injEq, Prod.mk.injEq] at e1
    obtain ⟨rfl, rfl⟩ := e1
    rcases e5 i hi with h | h | h | ⟨p, h, -⟩
    · rcases ih e2 h (fun o ho => hs o (by simp [ho])) with h | ⟨t, now, h⟩
      · exact .inl h
      · exact .inr ⟨t, now, List.mem_append_right _ h⟩
    · subst h
      exact .inr ⟨_, _, List.mem_append_left _ (List.mem_singleton.mpr rfl)⟩
    · exact absurd h (hs _ (by simp)).1
    · exact absurd h ((hs _ (by simp)).2 p)

/-- C11: the reported wake-up time is never later than any pending due time (or
the current time, if that has passed); nothing is reported only if nothing is
pending. -/
theorem next_wakeup (s : St) (clk : Nat) (h : Inv s clk) :
    (s.list = [] → nextExpiration s = 0) ∧
    ∀ t ∈ s.list, nextExpiration s ≤ max clk (due (s.et t).timer) := by
  constructor
  · intro h; simp [nextExpiration, h]
  · intro t ht
    have : s.list ≠ [] := by intro e; simp [e] at ht
    simp only [nextExpiration, this, ne_eq, not_false_iff, ↓reduceIte]
    exact h.wake t ht

/-- C11: polling posts every due timer: afterwards no pending timer is due, unless
the queue is full, and then a further poll has been requested. -/
theorem pollAll_complete (lim : Option Nat) (now : Nat) (hn : now + 1 < W) : ∀ (k : Nat) (s : St)
    (clk : Nat), Inv s clk → clk ≤ now → s.list.length < k →
    Inv (pollAll lim now k s) now ∧
    ∀ t ∈ (pollAll lim now k s).list, due ((pollAll lim now k s).et t).timer ≤ now →
      lim = some (pollAll lim now k s).queue.length ∧ (pollAll lim now k s).pollReq = true
  | 0, s, clk, _, _, hk => by omega
  | k + 1, s, clk, h, hle, hk => by
      have hu := inv_mono s clk now h hle
      rcases pollWalk_spec lim now s.list [] s with ⟨b, h1, h2, h3⟩ | ⟨a, t, c, h1, h2, h3, h4⟩
      · have : pollAll lim now (k + 1) s = { s with pollReq := b } := by
          simp only [pollAll, pollOnce, h1]
        rw [this]
        refine ⟨⟨hu.nodup, hu.owned, hu.fits, hu.wake⟩, ?_⟩
        intro t ht hd
        exact h2 t ht ((expired_iff _ _ (ok_of_due (h.fits t ht)) hn).mpr hd)
      · obtain ⟨s1, r1, e1, e2, -⟩ := exec_step lim s clk now .pollOnce h hle hn trivial
        simp only [exec, pollOnce, h4, Out.ok.injEq, Prod.mk.injEq] at e1
        obtain ⟨rfl, rfl⟩ := e1
        have : pollAll lim now (k + 1) s = pollAll lim now k (updateTime ({ s with list := [] ++ a ++ c, queue := s.queue ++ [(⟨(s.et t).p, evTimer, t⟩ : Ev)] }.upd t
          fun e => { e with p := none }) now) := by
          simp only [pollAll, pollOnce, h4]
        rw [this]
        refine pollAll_complete lim now hn k _ now e2 (Nat.le_refl _) ?_
        rw [updateTime_list]
        simp only [St.upd, List.nil_append, List.length_append]
        rw [h1] at hk
        simp only [List.length_append, List.length_cons] at hk
        omega

/-- The initial state satisfies the invariant. -/
theorem inv_init (et : Nat → ET) (clk : Nat) : Inv (init et) clk :=
  ⟨by simp [init], by simp [init], by simp [init], by simp [init]⟩

/-- A timer is armed, polled too early, polled when due, and polled again. -/
example : ∃ s', Runs none (init fun _ => ⟨⟨0, 0⟩, none⟩) 0
    [.set 7 10 1, .pollOnce, .set 8 3 1, .pollOnce, .pollOnce, .pollOnce]
    [(8, ⟨9, 3⟩, 12), (7, ⟨5, 10⟩, 15)] s' 20 ∧ s'.list = [] := by
  refine ⟨_, .cons (now := 5) (r := none) (by decide) (by decide) (by show _ < _; decide) rfl
    (.cons (now := 9) (r := none) (by decide) (by decide) trivial rfl
    (.cons (now := 9) (r := none) (by decide) (by decide) (by show _ < _; decide) rfl
    (.cons (now := 12) (r := some 8) (by decide) (by decide) trivial rfl
    (.cons (now := 15) (r := some 7) (by decide) (by decide) trivial rfl
    (.cons (now := 20) (r := none) (by decide) (by decide) trivial rfl (.nil _ _)))))), rfl⟩

/-- Without a current process (the code does not check it) setting a timer twice
corrupts the timer list. -/
theorem no_current_process_ub :
    (do let s ← etSet (init fun _ => ⟨⟨0, 0⟩, none⟩) 7 10 none 0
        etSet s 7 10 none 1) = .ub := rfl

/-- A stopped timer whose event is queued already is still delivered: stopping does
not remove the event. -/
theorem stop_keeps_queued_event :
    ∃ s, Inv s 20 ∧ ⟨some 1, evTimer, 7⟩ ∈ s.queue ∧ ⟨some 1, evTimer, 7⟩ ∈ (etStop s 7 20).queue := by
  refine ⟨(pollOnce none (match etSet (init fun _ => ⟨⟨0, 0⟩, none⟩) 7 10 (some 1) 5 with | .ok s => s | .ub => init fun _ => ⟨⟨0, 0⟩, none⟩) 20).1, ?_, ?_, ?_⟩
  · constructor <;> decide
  · decide
  · decide

end Verif.Etimer
