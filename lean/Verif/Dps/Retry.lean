import Verif.Dps.RetryModel
/-!
Properties of the retry counter of the provisioning client (C123).
-/
namespace Verif.Dps.Retry

/-- The configuration consists of the given times, followed by zeros. -/
def Has (r : R) (ts : List Nat) : Prop :=
  0 < ts.length ∧ ts.length ≤ 8 ∧ (∀ t ∈ ts, 0 < t) ∧ r.cfg = ts ++ List.replicate (8 - ts.length) 0

theorem size_has {r : R} {ts : List Nat} (h : Has r ts) : size r = ts.length := by
  obtain ⟨h0, h8, hp, hc⟩ := h
  unfold size
  rw [hc]
  have hl : (ts ++ List.replicate (8 - ts.length) 0).length = 8 := by simp; omega
  rw [List.take_of_length_le (by omega), List.findIdx_append]
  have : ts.findIdx (· == 0) = ts.length := by
    rw [List.findIdx_eq_length]
    intro t ht
    have := hp t ht
    simp; omega
  rw [this]
  by_cases e : ts.length = 8
  · simp [e]
  · have : 8 - ts.length = (7 - ts.length) + 1 := by omega
    rw [this, List.replicate_succ]
    simp [List.findIdx_cons]

theorem size_le (r : R) : size r ≤ 8 := by
  unfold size
  have h := List.findIdx_le_length (p := (· == 0)) (xs := r.cfg.take 8)
  have h8 : (r.cfg.take 8).length ≤ 8 := List.length_take_le _ _
  omega

/-- **C123 (configuration).** A configuration is refused exactly if it has no value,
more than eight or a zero; otherwise it is what can be read back, with a buffer large
enough. -/
theorem configuration (r : R) (cfg : List Nat) :
    (setCfg r cfg = none ↔ cfg = [] ∨ 8 < cfg.length ∨ 0 ∈ cfg) ∧
    ∀ r', setCfg r cfg = some r' →
      Has r' cfg ∧ r'.count = r.count ∧ r'.delay = r.delay ∧ r'.timeout = r.timeout ∧ r'.moves = r.moves ∧
      ∀ n, getCfg r' n = if n < cfg.length then none else some cfg := by
  unfold setCfg
  by_cases h1 : cfg.length = 0 ∨ cfg.length > 8
  · rw [if_pos h1]
    refine ⟨⟨fun _ => ?_, fun _ => rfl⟩, by intro r' h; cases h⟩
    rcases h1 with h | h
    · exact .inl (List.length_eq_zero_iff.1 h)
    · exact .inr (.inl h)
  · rw [if_neg h1]
    by_cases h2 : cfg.any (· == 0) = true
    · rw [if_pos h2]
      refine ⟨⟨fun _ => ?_, fun _ => rfl⟩, by intro r' h; cases h⟩
      simp at h2
      exact .inr (.inr h2)
    · rw [if_neg h2]
      simp only [List.any_eq_true, beq_iff_eq, exists_eq_right] at h2
      refine ⟨⟨fun h => (by cases h), fun h => ?_⟩, ?_⟩
      · rcases h with h | h | h
        · exact absurd (.inl (by rw [h]; rfl)) h1
        · exact absurd (.inr h) h1
        · exact absurd h h2
      · intro r' h
        cases h
        have hh : Has { r with cfg := cfg ++ List.replicate (8 - cfg.length) 0 } cfg :=
          ⟨by omega, by omega, fun t ht => Nat.pos_of_ne_zero fun e => h2 (e ▸ ht), rfl⟩
        refine ⟨hh, rfl, rfl, rfl, rfl, fun n => ?_⟩
        unfold getCfg
        rw [size_has hh]
        simp

/-- Eight values and a refused one. -/
example : setCfg init [1, 2, 3, 4, 5, 6, 7, 8] = some { init with cfg := [1, 2, 3, 4, 5, 6, 7, 8] } ∧
    setCfg init [1, 0] = none := by decide

/-- The delay for a timeout of `t` seconds lies between half of it and the whole. -/
def Between (d t : Nat) : Prop := t * 500 ≤ d ∧ d < t * 1000

theorem delay_between {t : Nat} (ht : 0 < t) (rnd : Nat) : Between (delayOf t rnd) t := by
  unfold delayOf Between
  rw [if_neg (by omega)]
  have h : t * 1000 / 2 = t * 500 := by omega
  rw [h]
  have := Nat.mod_lt rnd (show t * 500 > 0 by omega)
  omega

/-- `k` failed attempts, with any random values. -/
def fails (r : R) (rs : List (Nat × Nat)) : R := run r (rs.map fun x => .failed none x.1 x.2)

theorem reset_default {r : R} {ts : List Nat} (h : Has r ts) (a b : Nat) :
    Has (reset none a b r) ts ∧ (reset none a b r).count = 0 ∧ (reset none a b r).moves = r.moves ∧
    (reset none a b r).timeout = ts.getD 0 0 ∧ Between (reset none a b r).delay (ts.getD 0 0) := by
  have hs : size { r with count := 0 } = ts.length := size_has (r := { r with count := 0 }) h
  obtain ⟨h0, h8, hp, hc⟩ := h
  have hcfg : r.cfg.getD 0 0 = ts.getD 0 0 := by
    rw [hc]; cases ts with
    | nil => simp at h0
    | cons a l => simp
  have hpos : 0 < ts.getD 0 0 := by
    cases ts with
    | nil => simp at h0
    | cons a l => simpa using hp a (by simp)
  have e : reset none a b r = { r with count := 0, delay := delayOf (r.cfg.getD 0 0) a, timeout := r.cfg.getD 0 0 } := by
    simp only [reset, setRetry]
    rw [if_neg (by omega)]
  rw [e]
  refine ⟨⟨h0, h8, hp, hc⟩, rfl, rfl, hcfg, ?_⟩
  rw [← hcfg] at hpos ⊢
  exact delay_between hpos a

theorem increment_default {r : R} {ts : List Nat} (h : Has r ts) (hk : r.count < ts.length) (a b : Nat) :
    Has (increment none a b r) ts ∧
    (increment none a b r).count = (r.count + 1) % ts.length ∧
    (increment none a b r).moves = r.moves + (if r.count + 1 = ts.length then 1 else 0) ∧
    (increment none a b r).timeout = ts.getD ((r.count + 1) % ts.length) 0 ∧
    Between (increment none a b r).delay (ts.getD ((r.count + 1) % ts.length) 0) := by
  have h8 := h.2.1
  have hm : (r.count + 1) % 256 = r.count + 1 := Nat.mod_eq_of_lt (by omega)
  by_cases he : r.count + 1 = ts.length
  · have hs : size { r with count := r.count + 1 } = ts.length := size_has (r := { r with count := r.count + 1 }) h
    have e : increment none a b r = reset none a b { r with count := r.count + 1, moves := r.moves + 1 } := by
      simp only [increment, setRetry, hm]
      rw [if_pos (by omega)]
      simp
    have := reset_default (r := { r with count := r.count + 1, moves := r.moves + 1 }) (ts := ts) h a b
    rw [e, if_pos he, he, Nat.mod_self]
    exact this
  · have hs : size { r with count := r.count + 1 } = ts.length := size_has (r := { r with count := r.count + 1 }) h
    have hlt : r.count + 1 < ts.length := by omega
    have hcfg : r.cfg.getD (r.count + 1) 0 = ts.getD (r.count + 1) 0 := by
      rw [h.2.2.2]
      simp only [List.getD_eq_getElem?_getD]
      rw [List.getElem?_append_left hlt]
    have hpos : 0 < ts.getD (r.count + 1) 0 := by
      simp only [List.getD_eq_getElem?_getD, List.getElem?_eq_getElem hlt, Option.getD_some]
      exact h.2.2.1 _ (List.getElem_mem hlt)
    have e : increment none a b r = { r with count := r.count + 1, delay := delayOf (r.cfg.getD (r.count + 1) 0) a, timeout := r.cfg.getD (r.count + 1) 0 } := by
      simp only [increment, setRetry, hm]
      rw [if_neg (by omega)]
    rw [e, if_neg he, Nat.mod_eq_of_lt hlt]
    refine ⟨h, rfl, rfl, hcfg, ?_⟩
    show Between (delayOf _ a) _
    rw [← hcfg] at hpos ⊢
    exact delay_between hpos a

/-- **C123 (schedule).** With the default scheduler and a configuration of `n` times,
from a success on: the action after `k` failed attempts is scheduled with the time
number `k mod n` as timeout, its delay lies between half of that time and the whole,
and the client has gone on to the next server `k / n` times. -/
theorem schedule {r : R} {ts : List Nat} (h : Has r ts) (a b : Nat) (rs : List (Nat × Nat)) :
    let r' := fails (reset none a b r) rs
    Has r' ts ∧ r'.count = rs.length % ts.length ∧ r'.moves = r.moves + rs.length / ts.length ∧
    r'.timeout = ts.getD (rs.length % ts.length) 0 ∧ getTimeout r' = .ok (ts.getD (rs.length % ts.length) 0) ∧
    Between r'.delay (ts.getD (rs.length % ts.length) 0) := by
  have main : ∀ rs : List (Nat × Nat),
      let r' := fails (reset none a b r) rs.reverse
      Has r' ts ∧ r'.count = rs.length % ts.length ∧ r'.moves = r.moves + rs.length / ts.length ∧
      r'.timeout = ts.getD (rs.length % ts.length) 0 ∧
      Between r'.delay (ts.getD (rs.length % ts.length) 0) := by
    intro rs
    induction rs with
    | nil =>
      obtain ⟨a1, a2, a3, a4, a5⟩ := reset_default h a b
      have hz : 0 / ts.length = 0 := Nat.zero_div _
      simpa [fails, run, hz] using ⟨a1, a2, a3, a4, a5⟩
    | cons x rs ih =>
      obtain ⟨i1, i2, i3, i4, i5⟩ := ih
      have hn := h.1
      have hlt : (fails (reset none a b r) rs.reverse).count < ts.length := by
        rw [i2]; exact Nat.mod_lt _ hn
      have := increment_default i1 hlt x.1 x.2
      have e : fails (reset none a b r) (x :: rs).reverse =
          increment none x.1 x.2 (fails (reset none a b r) rs.reverse) := by
        simp [fails, run, List.map_append, List.foldl_append, step]
      dsimp only
      rw [e]
      obtain ⟨j1, j2, j3, j4, j5⟩ := this
      rw [i2] at j2 j3 j4 j5
      rw [i3] at j3
      have hmod : (rs.length % ts.length + 1) % ts.length = (rs.length + 1) % ts.length := by
        rw [Nat.add_mod, Nat.mod_mod, ← Nat.add_mod]
      rw [hmod] at j2 j4 j5
      refine ⟨j1, j2, ?_, j4, j5⟩
      rw [j3, List.length_cons]
      have hd := Nat.div_add_mod rs.length ts.length
      have hd2 := Nat.div_add_mod (rs.length + 1) ts.length
      have hlt2 := Nat.mod_lt rs.length hn
      by_cases he : rs.length % ts.length + 1 = ts.length
      · rw [if_pos he]
        have : (rs.length + 1) / ts.length = rs.length / ts.length + 1 := by
          have : rs.length + 1 = ts.length * (rs.length / ts.length + 1) := by
            rw [Nat.mul_add]; omega
          rw [this, Nat.mul_div_cancel_left _ hn]
        omega
      · rw [if_neg he]
        have : (rs.length + 1) / ts.length = rs.length / ts.length := by
          have e1 : rs.length + 1 = rs.length % ts.length + 1 + ts.length * (rs.length / ts.length) := by omega
          rw [e1, Nat.add_mul_div_left _ _ hn, Nat.div_eq_of_lt (by omega)]
          omega
        omega
  have m := main rs.reverse
  rw [List.reverse_reverse, List.length_reverse] at m
  obtain ⟨m1, m2, m3, m4, m5⟩ := m
  refine ⟨m1, m2, m3, m4, ?_, m5⟩
  have hn := h.1
  have h8 := h.2.1
  have hlt := Nat.mod_lt rs.length hn
  unfold getTimeout
  rw [if_pos (by rw [m2]; omega), m4]
  rw [if_neg]
  have : 0 < ts.getD (rs.length % ts.length) 0 := by
    simp only [List.getD_eq_getElem?_getD, List.getElem?_eq_getElem hlt, Option.getD_some]
    exact h.2.2.1 _ (List.getElem_mem hlt)
  omega

/-- The default configuration; after seven failures: the second server, third time. -/
example : Has init [10, 20, 40, 80, 120] ∧
    (fails (reset none 0 0 init) (List.replicate 7 (3, 4))).timeout = 40 ∧
    (fails (reset none 0 0 init) (List.replicate 7 (3, 4))).moves = 1 := by
  refine ⟨⟨by decide, by decide, by decide, by decide⟩, by decide, by decide⟩

/-- The scheduler ends the attempts: it answers false for the counter 8. -/
def Ends (s : Sched) : Prop :=
  match s with
  | none => True
  | some cb => cb 8 = none

theorem setRetry_count (s : Sched) (rnd : Nat) (r : R) (c : Nat) :
    (setRetry s rnd r c).2.count = r.count ∧ (setRetry s rnd r c).2.cfg = r.cfg := by
  unfold setRetry
  cases s with
  | some cb => exact ⟨rfl, rfl⟩
  | none => dsimp only; split <;> exact ⟨rfl, rfl⟩

theorem reset_count (s : Sched) (a b : Nat) (r : R) : (reset s a b r).count = 0 := by
  unfold reset
  dsimp only
  split <;> exact (setRetry_count s a { r with count := 0 } 0).1

/-- What a scheduler answers for the first attempt; `none` if it refuses. -/
def Answers (s : Sched) (r : R) (d t : Nat) : Prop :=
  match s with
  | some cb => cb 0 = some (d, t)
  | none => 0 < size r ∧ t = r.cfg.getD 0 0 ∧ (0 < t → Between d t)

/-- **C123 (after a success).** A success starts a new round: whatever was scheduled before, the counter is
zero and the delay and the timeout are those the scheduler gives for the first attempt, or two seconds and a
delay between one second and two if it gives none. -/
theorem reset_fresh (s : Sched) (a b : Nat) (r : R) :
    (reset s a b r).count = 0 ∧ (reset s a b r).cfg = r.cfg ∧
    (Answers s r (reset s a b r).delay (reset s a b r).timeout ∨
      (∀ d t, ¬ Answers s r d t) ∧ (reset s a b r).timeout = 2 ∧ Between (reset s a b r).delay 2) := by
  have h2 : Between (delayOf 2 b) 2 := delay_between (by omega) b
  cases s with
  | some cb =>
    cases hc : cb 0 with
    | none => simp [reset, setRetry, Answers, hc, h2]
    | some x => simp [reset, setRetry, Answers, hc]
  | none =>
    have hs : size { r with count := 0 } = size r := rfl
    by_cases h : size r = 0
    · simp [reset, setRetry, Answers, hs, h, h2]
    · refine ⟨?_, ?_, .inl ?_⟩
      · simp [reset, setRetry, hs, h]
      · simp [reset, setRetry, hs, h]
      · simp only [reset, setRetry, hs, Answers]
        rw [if_neg (by omega)]
        exact ⟨by omega, rfl, fun ht => delay_between ht a⟩

example : reset (some fun _ => none) 0 7 { init with count := 3, delay := 77777, timeout := 99 } =
    { init with count := 0, delay := 1007, timeout := 2 } := by
  decide

theorem setRetry_eight {s : Sched} (hs : Ends s) (rnd : Nat) (r : R) : (setRetry s rnd r 8).1 = none := by
  unfold setRetry
  cases s with
  | some cb => exact hs
  | none => dsimp only; rw [if_pos (by have := size_le r; omega)]

/-- **C123 (reading the schedule), partial.** After any history of changes of the
configuration, failures and successes, the delay and the timeout can be read, and
neither is zero, if the application's scheduler, where it is used, ends the attempts
before the ninth.  (Without this condition: `counter_ub`.) -/
theorem readable_partial (ops : List Op) (hs : ∀ op ∈ ops, Ends op.sched) :
    (run init ops).count < 8 ∧
    (∃ t, getTimeout (run init ops) = .ok t ∧ 0 < t) ∧
    ∀ rnd, ∃ d, getDelay rnd (run init ops) = .ok d ∧ 0 < d := by
  have hc : (run init ops).count < 8 := by
    have : ∀ (ops : List Op) (r : R), r.count < 8 → (∀ op ∈ ops, Ends op.sched) → (run r ops).count < 8 := by
      intro ops
      induction ops with
      | nil => intro r h _; exact h
      | cons op ops ih =>
        intro r h he
        refine ih (step r op) ?_ fun o ho => he o (by simp [ho])
        have hop := he op (by simp)
        cases op with
        | set cfg =>
          show ((setCfg r cfg).getD r).count < 8
          cases hx : setCfg r cfg with
          | none => exact h
          | some r' => rw [Option.getD_some, ((configuration r cfg).2 r' hx).2.1]; exact h
        | done s a b => show (reset s a b r).count < 8; rw [reset_count]; omega
        | failed s a b =>
          show (increment s a b r).count < 8
          have hm : (r.count + 1) % 256 = r.count + 1 := Nat.mod_eq_of_lt (by omega)
          unfold increment
          dsimp only
          rw [hm]
          have hcnt := setRetry_count s a { r with count := r.count + 1 } (r.count + 1)
          by_cases h8 : r.count + 1 = 8
          · have := setRetry_eight (s := s) hop a { r with count := r.count + 1 }
            rw [← h8] at this
            rw [this]
            dsimp only
            rw [if_neg (by omega), reset_count]; omega
          · split
            · show (setRetry _ _ _ _).2.count < 8
              rw [hcnt.1]; show r.count + 1 < 8; omega
            · rw [if_neg (by omega), reset_count]; omega
    exact this ops init (by decide) hs
  refine ⟨hc, ?_, ?_⟩
  · unfold getTimeout
    rw [if_pos hc]
    refine ⟨_, rfl, ?_⟩
    split <;> omega
  · intro rnd
    unfold getDelay
    rw [if_pos hc]
    refine ⟨_, rfl, ?_⟩
    split
    · have := delay_between (t := 2) (by omega) rnd
      have := this.1
      omega
    · omega

/-- A scheduler of an application that gives a second for the first three attempts. -/
example : Ends (some fun k => if k < 3 then some (1000, 1) else none) := by
  show (if 8 < 3 then some (1000, 1) else none) = none
  decide

/-- **C123 is false of other schedulers.** An application's scheduler that lets the
client go on for ever, as its contract allows, makes the assertion on the counter fail
after the eighth failure. -/
theorem counter_ub :
    getDelay 0 (run init (List.replicate 8 (.failed (some fun _ => some (1000, 1)) 0 0))) = .ub ∧
    getTimeout (run init (List.replicate 8 (.failed (some fun _ => some (1000, 1)) 0 0))) = .ub := by
  decide

/-- Seven failures are all right. -/
example : getDelay 0 (run init (List.replicate 7 (.failed (some fun _ => some (1000, 1)) 0 0))) = .ok 1000 := by
  decide

end Verif.Dps.Retry
