import Verif.Json.EncSpec

/-! Lemmas about the encoder. -/

namespace Verif.Json

open Verif.Rep (b)

/-- The size the buffer can have at most. -/
def limit (e : Enc) : Nat := if e.grow then max e.cap e.max else e.cap

/-- An encoder that points into the buffer, or counts at least one missing byte. -/
def Sound (cap : Nat) (s : Sub) : Prop := s.out.length ≤ cap ∧ ∀ n, s.over = some n → 0 < n

theorem append_over {cap : Nat} {s : Sub} {n : Nat} (h : s.over = some n) (hn : 0 < n)
    (l : List UInt8) : append cap s l = .ok { s with over := some (n + l.length) } := by
  have hw : wouldOverflow cap s l.length = true := by
    simp only [wouldOverflow, h, decide_eq_true_eq]; omega
  simp only [append, hw, h, if_true]

theorem appends_over {cap : Nat} : ∀ {l : List (List UInt8)} {s : Sub} {n : Nat}, s.over = some n →
    0 < n → appends cap s l = .ok { s with over := some (n + l.flatten.length) }
  | [], s, n, h, _ => by
    cases s; simp_all [appends]
  | x :: l, s, n, h, hn => by
    rw [appends, append_over h hn]
    dsimp only [Out.bind]
    rw [appends_over (n := n + x.length) rfl (by omega)]
    simp; omega

theorem append_fits {cap : Nat} {s : Sub} (h : s.over = none) {l : List UInt8}
    (hl : s.out.length + l.length ≤ cap) : append cap s l = .ok { s with out := s.out ++ l } := by
  have hw : wouldOverflow cap s l.length = false := by
    simp only [wouldOverflow, h, decide_eq_false_iff_not]; omega
  simp [append, hw, h, hl]

theorem append_full {cap : Nat} {s : Sub} (h : s.over = none) {l : List UInt8}
    (hl : cap < s.out.length + l.length) :
    append cap s l = .ok { s with over := some (l.length - (cap - s.out.length)) } := by
  have hw : wouldOverflow cap s l.length = true := by
    simp only [wouldOverflow, h, decide_eq_true_eq]; omega
  simp [append, hw, h]

theorem appends_fits {cap : Nat} : ∀ {l : List (List UInt8)} {s : Sub}, s.over = none →
    s.out.length + l.flatten.length ≤ cap →
    appends cap s l = .ok { s with out := s.out ++ l.flatten }
  | [], s, _, _ => by simp [appends]
  | x :: l, s, h, hl => by
    simp only [List.flatten_cons, List.length_append] at hl
    rw [appends, append_fits h (by omega)]
    dsimp only [Out.bind]
    rw [appends_fits (s := { s with out := s.out ++ x }) h (by simp only [List.length_append]; omega)]
    simp

theorem appends_full {cap : Nat} : ∀ {l : List (List UInt8)} {s : Sub}, s.over = none →
    s.out.length ≤ cap → cap < s.out.length + l.flatten.length →
    ∃ s1, appends cap s l = .ok s1 ∧ s1.over = some (s.out.length + l.flatten.length - cap) ∧
      s1.out.length ≤ cap
  | [], s, _, h1, h2 => by simp at h2; omega
  | x :: l, s, h, h1, hl => by
    simp only [List.flatten_cons, List.length_append] at hl
    by_cases hx : s.out.length + x.length ≤ cap
    · rw [appends, append_fits h hx]
      dsimp only [Out.bind]
      obtain ⟨s1, e1, e2, e3⟩ := appends_full (l := l) (s := { s with out := s.out ++ x }) h
        (by simp only [List.length_append]; omega) (by simp only [List.length_append]; omega)
      refine ⟨s1, e1, ?_, e3⟩
      rw [e2]
      simp only [List.flatten_cons, List.length_append]
      rw [Nat.add_assoc]
    · rw [appends, append_full h (by omega)]
      dsimp only [Out.bind]
      rw [appends_over (n := x.length - (cap - s.out.length)) rfl (by omega)]
      refine ⟨_, rfl, ?_, h1⟩
      simp only [List.flatten_cons, List.length_append, Option.some.injEq]
      omega

theorem appends_sound {cap : Nat} {s : Sub} (h : Sound cap s) (l : List (List UInt8)) :
    ∃ s1, appends cap s l = .ok s1 ∧ Sound cap s1 ∧ (s.over.isSome = true → s1.over.isSome = true) := by
  cases ho : s.over with
  | some n =>
    refine ⟨_, appends_over ho (h.2 n ho), ⟨h.1, ?_⟩, by simp⟩
    intro m hm
    have := h.2 n ho
    simp at hm; omega
  | none =>
    by_cases hf : s.out.length + l.flatten.length ≤ cap
    · exact ⟨_, appends_fits ho hf, ⟨by simpa using hf, by simp [ho]⟩, by simp⟩
    · obtain ⟨s1, e1, e2, e3⟩ := appends_full (l := l) ho h.1 (by omega)
      exact ⟨s1, e1, ⟨e3, by rw [e2]; intro n hn; have := Option.some.inj hn; omega⟩, by simp⟩

theorem sound_mono {c c' : Nat} {s : Sub} (h : Sound c s) (hc : c ≤ c') : Sound c' s :=
  ⟨Nat.le_trans h.1 hc, h.2⟩

theorem bufRealloc_some {e : Enc} {n c : Nat} (h : bufRealloc e n = some c) :
    e.grow = true ∧ e.cap + n ≤ c ∧ c ≤ e.max := by
  unfold bufRealloc at h
  split at h
  · cases h
  · next hg =>
    have hg : e.grow = true := by simpa using hg
    split at h
    · cases h
    · split at h
      · cases h; exact ⟨hg, by omega, by omega⟩
      · cases h; exact ⟨hg, by omega, by omega⟩

/-- The buffer after a call: not smaller, and within the limit. -/
def Cap (e : Enc) (c : Nat) : Prop := e.cap ≤ c ∧ c ≤ limit e

theorem cap_self (e : Enc) : Cap e e.cap := by
  refine ⟨Nat.le_refl _, ?_⟩
  unfold limit
  split
  · exact Nat.le_max_left _ _
  · exact Nat.le_refl _

theorem cap_realloc {e : Enc} {n c : Nat} (h : bufRealloc e n = some c) : Cap e c := by
  obtain ⟨h1, h2, h3⟩ := bufRealloc_some h
  refine ⟨by omega, ?_⟩
  unfold limit
  rw [h1]
  exact Nat.le_trans h3 (Nat.le_max_right _ _)

theorem limit_cap {e e' : Enc} (hc : Cap e e'.cap) (hg : e'.grow = e.grow) (hm : e'.max = e.max) :
    limit e' = limit e := by
  obtain ⟨h1, h2⟩ := hc
  unfold limit at h2 ⊢
  rw [hg, hm]
  split
  · next h =>
    rw [if_pos h] at h2
    have a1 := Nat.le_max_right e'.cap e.max
    have a2 := Nat.le_max_left e.cap e.max
    have a3 := Nat.le_max_left e'.cap e.max
    have a4 := Nat.le_max_right e.cap e.max
    apply Nat.le_antisymm
    · exact Nat.max_le.2 ⟨h2, a4⟩
    · exact Nat.max_le.2 ⟨Nat.le_trans h1 a3, a1⟩
  · next h =>
    rw [if_neg h] at h2
    omega

theorem call_sound {e : Enc} {s : Sub} (h : Sound e.cap s) (l : List (List UInt8)) :
    ∃ s1 c, call e s l = .ok (s1, c) ∧ Sound c s1 ∧ Cap e c := by
  obtain ⟨s1, e1, e2, _⟩ := appends_sound h l
  rw [call, e1]
  dsimp only [Out.bind]
  split
  · exact ⟨s1, _, rfl, e2, cap_self e⟩
  · next n hn =>
    split
    · exact ⟨s1, _, rfl, e2, cap_self e⟩
    · next c hc =>
      have := cap_realloc hc
      obtain ⟨s2, f1, f2, _⟩ := appends_sound (sound_mono h this.1) l
      rw [f1]
      exact ⟨s2, c, rfl, f2, this⟩

theorem call_fits {e : Enc} {s : Sub} (ho : s.over = none) (hs : s.out.length ≤ e.cap)
    {l : List (List UInt8)} (hl : s.out.length + l.flatten.length ≤ limit e) :
    ∃ c, call e s l = .ok ({ s with out := s.out ++ l.flatten }, c) ∧ Cap e c ∧
      s.out.length + l.flatten.length ≤ c := by
  by_cases hf : s.out.length + l.flatten.length ≤ e.cap
  · rw [call, appends_fits ho hf]
    refine ⟨e.cap, ?_, cap_self e, hf⟩
    simp only [Out.bind, ho]
  · obtain ⟨s1, e1, e2, e3⟩ := appends_full (l := l) ho hs (by omega)
    rw [call, e1]
    dsimp only [Out.bind]
    rw [e2]
    dsimp only
    have hg : e.grow = true ∧ s.out.length + l.flatten.length ≤ e.max := by
      unfold limit at hl
      split at hl
      · next h => exact ⟨h, by
          rcases Nat.le_total e.cap e.max with hm | hm
          · rwa [Nat.max_def, if_pos hm] at hl
          · rw [Nat.max_comm, Nat.max_def, if_pos hm] at hl; omega⟩
      · omega
    have : ∃ c, bufRealloc e (s.out.length + l.flatten.length - e.cap) = some c := by
      unfold bufRealloc
      rw [hg.1]
      simp only [Bool.not_true, Bool.false_eq_true, if_false]
      rw [if_neg (by omega)]
      split
      · exact ⟨_, rfl⟩
      · exact ⟨_, rfl⟩
    obtain ⟨c, hc⟩ := this
    rw [hc]
    dsimp only
    have hcap := bufRealloc_some hc
    rw [appends_fits ho (by omega)]
    exact ⟨c, rfl, cap_realloc hc, by omega⟩

theorem call_full {e : Enc} {s : Sub} (ho : s.over = none) (hs : s.out.length ≤ e.cap)
    {l : List (List UInt8)} (hl : limit e < s.out.length + l.flatten.length) :
    ∃ s1 c, call e s l = .ok (s1, c) ∧ s1.over.isSome = true := by
  have hc : e.cap ≤ limit e := (cap_self e).2
  obtain ⟨s1, e1, e2, e3⟩ := appends_full (l := l) ho hs (by omega)
  rw [call, e1]
  dsimp only [Out.bind]
  rw [e2]
  dsimp only
  split
  · exact ⟨s1, _, rfl, by rw [e2]; rfl⟩
  · next c hr =>
    obtain ⟨h1, h2, h3⟩ := bufRealloc_some hr
    have : e.max ≤ limit e := by unfold limit; rw [h1]; exact Nat.le_max_right _ _
    omega

/-! ### Safety of every sequence of calls -/

/-- Every encoder on the stack is sound. -/
def SoundE (e : Enc) : Prop := ∀ s ∈ e.stack, Sound e.cap s

theorem after_sound {c : Nat} {s : Sub} (h : Sound c s) (op : Op) : Sound c (after s op) := by
  unfold after
  split
  · unfold afterText
    dsimp only
    split <;> (split <;> try split) <;> (try split) <;> exact h
  · exact h

theorem opened_sound {c : Nat} {s : Sub} (h : Sound c s) (m : Bool) :
    ∀ x ∈ opened m s, Sound c x := by
  unfold opened
  split
  · intro x hx
    simp at hx
    rcases hx with rfl | rfl
    · exact ⟨h.1, by simp⟩
    · exact h
  · intro x hx
    simp at hx
    subst hx
    exact h

theorem soundE_tail {e : Enc} {s : Sub} {rest : List Sub} (h : SoundE e) (hs : e.stack = s :: rest)
    {c : Nat} (hc : Cap e c) : ∀ x ∈ rest, Sound c x := by
  intro x hx
  exact sound_mono (h x (by rw [hs]; simp [hx])) hc.1

theorem step_sound {e : Enc} (h : SoundE e) (op : Op) :
    ∃ e', step e op = .ok e' ∧ SoundE e' ∧ Cap e e'.cap ∧ e'.grow = e.grow ∧ e'.max = e.max ∧
      (e.err = true → e'.err = true) := by
  unfold step
  cases hst : e.stack with
  | nil => exact ⟨e, rfl, h, cap_self e, rfl, rfl, id⟩
  | cons s rest =>
    have hs : Sound e.cap s := h s (by rw [hst]; simp)
    dsimp only
    have gen : ∀ op : Op, (∃ e', (if refused s op then Out.ok { e with stack := s :: rest, err := true }
        else (call e s (separator s ++ body op)).bind fun r =>
          match r.1.over with
          | none => .ok { e with stack := after r.1 op :: rest, cap := r.2 }
          | some _ => .ok { e with stack := r.1 :: rest, cap := r.2, err := true }) = .ok e' ∧
        SoundE e' ∧ Cap e e'.cap ∧ e'.grow = e.grow ∧ e'.max = e.max ∧
          (e.err = true → e'.err = true)) := by
      intro op
      split
      · exact ⟨_, rfl, by unfold SoundE at h ⊢; rw [hst] at h; exact h, cap_self e, rfl, rfl, fun _ => rfl⟩
      · obtain ⟨s1, c, e1, e2, e3⟩ := call_sound hs (separator s ++ body op)
        rw [e1]
        dsimp only [Out.bind]
        split
        · refine ⟨_, rfl, ?_, e3, rfl, rfl, id⟩
          intro x hx
          rcases List.mem_cons.1 hx with rfl | hx
          · exact after_sound e2 op
          · exact soundE_tail h hst e3 x hx
        · refine ⟨_, rfl, ?_, e3, rfl, rfl, fun _ => rfl⟩
          intro x hx
          rcases List.mem_cons.1 hx with rfl | hx
          · exact e2
          · exact soundE_tail h hst e3 x hx
    have genO : ∀ (op : Op) (m : Bool), (∃ e', (if refused s op then
          Out.ok { e with stack := {} :: s :: rest, err := true }
        else (call e s (separator s ++ body op)).bind fun r =>
          .ok { e with stack := opened m r.1 ++ rest, cap := r.2, err := e.err || r.1.over.isSome }) =
            .ok e' ∧ SoundE e' ∧ Cap e e'.cap ∧ e'.grow = e.grow ∧ e'.max = e.max ∧
          (e.err = true → e'.err = true)) := by
      intro op m
      split
      · refine ⟨_, rfl, ?_, cap_self e, rfl, rfl, fun _ => rfl⟩
        intro x hx
        rcases List.mem_cons.1 hx with rfl | hx
        · exact ⟨by simp, by simp⟩
        · exact h x (by rw [hst]; exact hx)
      · obtain ⟨s1, c, e1, e2, e3⟩ := call_sound hs (separator s ++ body op)
        rw [e1]
        dsimp only [Out.bind]
        refine ⟨_, rfl, ?_, e3, rfl, rfl, fun he => by simp [he]⟩
        intro x hx
        rcases List.mem_append.1 hx with hx | hx
        · exact opened_sound e2 m x hx
        · exact soundE_tail h hst e3 x hx
    cases op with
    | close =>
      dsimp only
      cases rest with
      | nil => exact ⟨e, rfl, h, cap_self e, rfl, rfl, id⟩
      | cons p rest' =>
        dsimp only
        have hp : Sound e.cap { p with out := s.out, over := s.over } := hs
        obtain ⟨s1, c, e1, e2, e3⟩ := call_sound hp [if s.map then [125] else [93]]
        rw [e1]
        dsimp only [Out.bind]
        refine ⟨_, rfl, ?_, e3, rfl, rfl, fun he => by simp [he]⟩
        intro x hx
        rcases List.mem_cons.1 hx with rfl | hx
        · exact e2
        · exact soundE_tail h hst e3 x (by simp [hx])
    | arr => exact genO .arr false
    | map => exact genO .map true
    | null => exact gen .null
    | bool x => exact gen (.bool x)
    | int i => exact gen (.int i)
    | uint n => exact gen (.uint n)
    | text t => exact gen (.text t)
    | bytes t => exact gen (.bytes t)
    | dbl t => exact gen (.dbl t)

theorem run_sound : ∀ (os : List Op) {e : Enc}, SoundE e →
    ∃ e', run e os = .ok e' ∧ SoundE e' ∧ e'.cap ≤ limit e ∧ (e.err = true → e'.err = true)
  | [], e, h => ⟨e, rfl, h, (cap_self e).2, id⟩
  | op :: os, e, h => by
    obtain ⟨e1, h1, h2, h3, h4, h5, h6⟩ := step_sound h op
    obtain ⟨e2, g1, g2, g3, g4⟩ := run_sound os h2
    refine ⟨e2, by rw [run, h1]; exact g1, g2, ?_, fun he => g4 (h6 he)⟩
    rw [limit_cap h3 h4 h5] at g3
    exact g3

/-! ### The encoder without limits -/

/-- `step` when the buffer is large enough. -/
def pstep (op : Op) : List Sub → Option (List Sub)
  | [] => none
  | s :: rest =>
    match op with
    | .close => match rest with
      | [] => none
      | p :: r => some ({ p with out := s.out ++ [if s.map then 125 else 93], over := none } :: r)
    | .arr => if refused s .arr then none
      else some (opened false { s with out := s.out ++ (separator s ++ body .arr).flatten } ++ rest)
    | .map => if refused s .map then none
      else some (opened true { s with out := s.out ++ (separator s ++ body .map).flatten } ++ rest)
    | op => if refused s op then none
      else some (after { s with out := s.out ++ (separator s ++ body op).flatten } op :: rest)

/-- `run` when the buffer is large enough. -/
def prun : List Sub → List Op → Option (List Sub)
  | st, [] => some st
  | st, op :: r => (pstep op st).bind fun st' => prun st' r

/-- The bytes written so far. -/
def topOut : List Sub → List UInt8
  | [] => []
  | s :: _ => s.out

theorem after_out (s : Sub) (op : Op) : (after s op).out = s.out ∧ (after s op).over = s.over := by
  unfold after
  split
  · unfold afterText
    dsimp only
    split <;> (split <;> try split) <;> (try split) <;> exact ⟨rfl, rfl⟩
  · exact ⟨rfl, rfl⟩

theorem pstep_grow {op : Op} {st st' : List Sub} (h : pstep op st = some st') :
    (topOut st).length ≤ (topOut st').length := by
  cases st with
  | nil => cases h
  | cons s rest =>
    have gen : ∀ op : Op, (if refused s op then none
        else some (after { s with out := s.out ++ (separator s ++ body op).flatten } op :: rest)) = some st' →
        (topOut (s :: rest)).length ≤ (topOut st').length := by
      intro op h
      split at h
      · cases h
      · cases h
        simp only [topOut, (after_out _ op).1, List.length_append]
        omega
    have genO : ∀ (op : Op) (m : Bool), (if refused s op then none
        else some (opened m { s with out := s.out ++ (separator s ++ body op).flatten } ++ rest)) = some st' →
        (topOut (s :: rest)).length ≤ (topOut st').length := by
      intro op m h
      split at h
      · cases h
      · cases h
        unfold opened
        cases ho : s.over <;> simp [topOut] <;> omega
    cases op with
    | close =>
      cases rest with
      | nil => cases h
      | cons p r => cases h; simp [topOut]
    | arr => exact genO .arr false h
    | map => exact genO .map true h
    | null => exact gen .null h
    | bool x => exact gen (.bool x) h
    | int i => exact gen (.int i) h
    | uint n => exact gen (.uint n) h
    | text t => exact gen (.text t) h
    | bytes t => exact gen (.bytes t) h
    | dbl t => exact gen (.dbl t) h

theorem prun_grow : ∀ {os : List Op} {st st' : List Sub}, prun st os = some st' →
    (topOut st).length ≤ (topOut st').length
  | [], st, st', h => by cases h; exact Nat.le_refl _
  | op :: os, st, st', h => by
    rw [prun] at h
    cases e : pstep op st with
    | none => rw [e] at h; cases h
    | some st1 =>
      rw [e] at h
      exact Nat.le_trans (pstep_grow e) (prun_grow h)

/-- A step of the encoder is a step of the unlimited encoder if the bytes fit, and
an error otherwise. -/
theorem step_sim {e : Enc} {op : Op} {st' : List Sub} (hs : SoundE e) (he : e.err = false)
    (ho : ∀ s ∈ e.stack, s.over = none) (h : pstep op e.stack = some st') :
    if (topOut st').length ≤ limit e then
      ∃ c, step e op = .ok { e with stack := st', cap := c } ∧ Cap e c ∧
        SoundE { e with stack := st', cap := c } ∧ (∀ s ∈ st', s.over = none)
    else ∃ e', step e op = .ok e' ∧ e'.err = true ∧ SoundE e' := by
  obtain ⟨e', g1, g2, g3, g4, g5, g6⟩ := step_sound hs op
  cases hst : e.stack with
  | nil => rw [hst] at h; cases h
  | cons s rest =>
    have hs0 : s.over = none := ho s (by rw [hst]; simp)
    have hs1 : s.out.length ≤ e.cap := (hs s (by rw [hst]; simp)).1
    rw [hst] at h ho
    have hrest : ∀ x ∈ rest, x.over = none := fun x hx => ho x (by simp [hx])
    have gen : ∀ op : Op, step e op = (if refused s op then Out.ok { e with stack := s :: rest, err := true }
        else (call e s (separator s ++ body op)).bind fun r =>
          match r.1.over with
          | none => .ok { e with stack := after r.1 op :: rest, cap := r.2 }
          | some _ => .ok { e with stack := r.1 :: rest, cap := r.2, err := true }) →
        step e op = .ok e' →
        (if refused s op then none
        else some (after { s with out := s.out ++ (separator s ++ body op).flatten } op :: rest)) = some st' →
        if (topOut st').length ≤ limit e then
          ∃ c, step e op = .ok { e with stack := st', cap := c } ∧ Cap e c ∧
            SoundE { e with stack := st', cap := c } ∧ (∀ s ∈ st', s.over = none)
        else ∃ e', step e op = .ok e' ∧ e'.err = true ∧ SoundE e' := by
      intro op h1 h2 h3
      split at h3
      · cases h3
      · next hr =>
        rw [if_neg hr] at h1
        cases h3
        have hlen : (topOut (after { s with out := s.out ++ (separator s ++ body op).flatten } op :: rest)).length
            = s.out.length + (separator s ++ body op).flatten.length := by
          simp only [topOut, (after_out _ op).1, List.length_append]
        split
        · next hl =>
          rw [hlen] at hl
          obtain ⟨c, c1, c2, _⟩ := call_fits hs0 hs1 hl
          rw [c1] at h1
          have h1' : step e op = Out.ok { e with stack := after { s with out := s.out ++ (separator s ++ body op).flatten } op :: rest, cap := c } := by
            rw [h1]
            simp [Out.bind, hs0]
          refine ⟨c, h1', c2, ?_, ?_⟩
          · rw [h1'] at h2
            cases h2
            exact g2
          · intro x hx
            rcases List.mem_cons.1 hx with rfl | hx
            · rw [(after_out _ op).2]; exact hs0
            · exact hrest x hx
        · next hl =>
          rw [hlen] at hl
          obtain ⟨s1, c, c1, c2⟩ := call_full (l := separator s ++ body op) hs0 hs1 (by omega)
          rw [c1] at h1
          obtain ⟨n, hn⟩ := Option.isSome_iff_exists.1 c2
          simp only [Out.bind, hn] at h1
          refine ⟨_, h1, rfl, ?_⟩
          rw [h1] at h2
          cases h2
          exact g2
    have genO : ∀ (op : Op) (m : Bool), step e op = (if refused s op then
          Out.ok { e with stack := {} :: s :: rest, err := true }
        else (call e s (separator s ++ body op)).bind fun r =>
          .ok { e with stack := opened m r.1 ++ rest, cap := r.2, err := e.err || r.1.over.isSome }) →
        step e op = .ok e' →
        (if refused s op then none
        else some (opened m { s with out := s.out ++ (separator s ++ body op).flatten } ++ rest)) = some st' →
        if (topOut st').length ≤ limit e then
          ∃ c, step e op = .ok { e with stack := st', cap := c } ∧ Cap e c ∧
            SoundE { e with stack := st', cap := c } ∧ (∀ s ∈ st', s.over = none)
        else ∃ e', step e op = .ok e' ∧ e'.err = true ∧ SoundE e' := by
      intro op m h1 h2 h3
      split at h3
      · cases h3
      · next hr =>
        rw [if_neg hr] at h1
        cases h3
        have hop : opened m { s with out := s.out ++ (separator s ++ body op).flatten } =
            [{ out := s.out ++ (separator s ++ body op).flatten, map := m, array := !m },
              afterValue { s with out := s.out ++ (separator s ++ body op).flatten }] := by
          simp [opened, hs0]
        have hlen : (topOut (opened m { s with out := s.out ++ (separator s ++ body op).flatten } ++ rest)).length
            = s.out.length + (separator s ++ body op).flatten.length := by
          rw [hop]
          simp [topOut]
        split
        · next hl =>
          rw [hlen] at hl
          obtain ⟨c, c1, c2, _⟩ := call_fits hs0 hs1 hl
          rw [c1] at h1
          simp only [Out.bind, hs0, he, Option.isSome_none, Bool.or_self] at h1
          have h1' : step e op = Out.ok { e with stack := opened m { s with out := s.out ++ (separator s ++ body op).flatten } ++ rest, cap := c } := by
            rw [h1, he]
            simp [hs0]
          refine ⟨c, h1', c2, ?_, ?_⟩
          · rw [h1'] at h2
            cases h2
            exact g2
          · intro x hx
            rw [hop] at hx
            rcases List.mem_append.1 hx with hx | hx
            · simp at hx
              rcases hx with rfl | rfl
              · rfl
              · exact hs0
            · exact hrest x hx
        · next hl =>
          rw [hlen] at hl
          obtain ⟨s1, c, c1, c2⟩ := call_full (l := separator s ++ body op) hs0 hs1 (by omega)
          rw [c1] at h1
          simp only [Out.bind, c2, Bool.or_true] at h1
          refine ⟨_, h1, rfl, ?_⟩
          rw [h1] at h2
          cases h2
          exact g2
    cases op with
    | close =>
      cases rest with
      | nil => cases h
      | cons p r =>
        cases h
        have h1 : step e .close = (call e { p with out := s.out, over := s.over }
            [if s.map then [125] else [93]]).bind fun r1 =>
          .ok { e with stack := r1.1 :: r, cap := r1.2, err := e.err || r1.1.over.isSome } := by
          unfold step
          rw [hst]
        have hfl : [if s.map then [125] else [(93 : UInt8)]].flatten = [if s.map then 125 else 93] := by
          cases s.map <;> rfl
        have hlen : ∀ x : UInt8, (topOut ({ p with out := s.out ++ [x], over := none } :: r)).length
            = s.out.length + 1 := fun x => by simp [topOut]
        rw [hlen]
        by_cases hl : s.out.length + 1 ≤ limit e
        · rw [if_pos hl]
          obtain ⟨c, c1, c2, _⟩ := call_fits (s := { p with out := s.out, over := s.over })
            (l := [if s.map then [125] else [93]]) hs0 hs1 (by rw [hfl]; exact hl)
          rw [c1, hfl] at h1
          have h1' : step e .close = .ok { e with stack := { p with out := s.out ++ [if s.map then 125 else 93], over := none } :: r, cap := c } := by
            rw [h1]
            simp [Out.bind, hs0]
          refine ⟨c, h1', c2, ?_, ?_⟩
          · rw [h1'] at g1
            cases g1
            exact g2
          · intro x hx
            rcases List.mem_cons.1 hx with rfl | hx
            · rfl
            · exact hrest x (by simp [hx])
        · rw [if_neg hl]
          obtain ⟨s1, c, c1, c2⟩ := call_full (s := { p with out := s.out, over := s.over })
            (l := [if s.map then [125] else [93]]) hs0 hs1
            (by rw [hfl]; simp only [List.length_singleton]; omega)
          rw [c1] at h1
          simp only [Out.bind, c2, Bool.or_true] at h1
          refine ⟨_, h1, rfl, ?_⟩
          rw [h1] at g1
          cases g1
          exact g2
    | arr => exact genO .arr false (by unfold step; rw [hst] <;> rfl) g1 h
    | map => exact genO .map true (by unfold step; rw [hst] <;> rfl) g1 h
    | null => exact gen .null (by unfold step; rw [hst] <;> rfl) g1 h
    | bool x => exact gen (.bool x) (by unfold step; rw [hst] <;> rfl) g1 h
    | int i => exact gen (.int i) (by unfold step; rw [hst] <;> rfl) g1 h
    | uint n => exact gen (.uint n) (by unfold step; rw [hst] <;> rfl) g1 h
    | text t => exact gen (.text t) (by unfold step; rw [hst] <;> rfl) g1 h
    | bytes t => exact gen (.bytes t) (by unfold step; rw [hst] <;> rfl) g1 h
    | dbl t => exact gen (.dbl t) (by unfold step; rw [hst] <;> rfl) g1 h

theorem run_sim : ∀ {os : List Op} {e : Enc} {st' : List Sub}, SoundE e → e.err = false →
    (∀ s ∈ e.stack, s.over = none) → prun e.stack os = some st' →
    if (topOut st').length ≤ limit e then
      ∃ c, run e os = .ok { e with stack := st', cap := c } ∧ Cap e c
    else ∃ e', run e os = .ok e' ∧ e'.err = true
  | [], e, st', hs, he, ho, h => by
    cases h
    have h1 : (topOut e.stack).length ≤ limit e := by
      cases hst : e.stack with
      | nil => simp [topOut]
      | cons s r =>
        have := (hs s (by rw [hst]; simp)).1
        exact Nat.le_trans this (cap_self e).2
    rw [if_pos h1]
    exact ⟨e.cap, rfl, cap_self e⟩
  | op :: os, e, st', hs, he, ho, h => by
    rw [prun] at h
    cases e1 : pstep op e.stack with
    | none => rw [e1] at h; cases h
    | some st1 =>
      rw [e1] at h
      have hg := prun_grow h
      have hstep := step_sim hs he ho e1
      by_cases hl : (topOut st').length ≤ limit e
      · rw [if_pos hl]
        rw [if_pos (Nat.le_trans hg hl)] at hstep
        obtain ⟨c, c1, c2, c3, c4⟩ := hstep
        have hlim : limit { e with stack := st1, cap := c } = limit e := limit_cap c2 rfl rfl
        have := run_sim (e := { e with stack := st1, cap := c }) c3 he c4 h
        rw [hlim, if_pos hl] at this
        obtain ⟨c', d1, d2⟩ := this
        refine ⟨c', by rw [run, c1]; exact d1, ⟨Nat.le_trans c2.1 d2.1, ?_⟩⟩
        rw [← hlim]; exact d2.2
      · rw [if_neg hl]
        by_cases hl1 : (topOut st1).length ≤ limit e
        · rw [if_pos hl1] at hstep
          obtain ⟨c, c1, c2, c3, c4⟩ := hstep
          have hlim : limit { e with stack := st1, cap := c } = limit e := limit_cap c2 rfl rfl
          have := run_sim (e := { e with stack := st1, cap := c }) c3 he c4 h
          rw [hlim, if_neg hl] at this
          obtain ⟨e', d1, d2⟩ := this
          exact ⟨e', by rw [run, c1]; exact d1, d2⟩
        · rw [if_neg hl1] at hstep
          obtain ⟨e', c1, c2, c3⟩ := hstep
          obtain ⟨e2, f1, _, _, f2⟩ := run_sound os c3
          exact ⟨e2, by rw [run, c1]; exact f1, f2 c2⟩

end Verif.Json
