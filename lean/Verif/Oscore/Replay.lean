import Verif.Oscore.Model

/-!
The replay window (C34).
-/

namespace Verif.Oscore

/-- Specification of a window that keeps the 32 newest numbers: `recent h rs`
are the numbers that passed, newest first, when `h` had passed before. -/
def Spec.recent (h : List Nat) : List Req → List Nat
  | [] => h
  | ⟨none, _⟩ :: rs => Spec.recent h rs
  | ⟨some p, _⟩ :: rs => if p ∈ h.take 32 then Spec.recent h rs else Spec.recent (p :: h) rs

/-- The ring holds the newest 32 numbers of the history (zeros where there are
fewer), the newest one at `idx`. -/
structure Ring (w : Win) (h : List Nat) : Prop where
  len : w.rwin.length = 32
  idx : w.idx < 32
  at_ : ∀ k, k < 32 → w.rwin[(w.idx + 32 - k) % 32]? = some (h[k]?.getD 0)

theorem ring_init : Ring Win.init [] := by
  refine ⟨rfl, by decide, ?_⟩
  intro k hk
  show (List.replicate 32 0)[_]? = _
  rw [List.getElem?_replicate, if_pos (Nat.mod_lt _ (by decide))]
  simp

theorem ring_push (w : Win) (h : List Nat) (hr : Ring w h) (p : Nat) :
    Ring ⟨w.rwin.set ((w.idx + 1) % 32) p, (w.idx + 1) % 32⟩ (p :: h) := by
  refine ⟨by simp [hr.len], Nat.mod_lt _ (by decide), ?_⟩
  intro k hk
  have hi := hr.idx
  show (w.rwin.set ((w.idx + 1) % 32) p)[((w.idx + 1) % 32 + 32 - k) % 32]? = _
  rw [List.getElem?_set]
  cases k with
  | zero =>
    rw [if_pos (by omega), if_pos (by rw [hr.len]; exact Nat.mod_lt _ (by decide))]
    simp
  | succ k =>
    rw [if_neg (by omega)]
    have := hr.at_ k (by omega)
    rw [show ((w.idx + 1) % 32 + 32 - (k + 1)) % 32 = (w.idx + 32 - k) % 32 by omega, this]
    simp

theorem ring_contains (w : Win) (h : List Nat) (hr : Ring w h) (p : Nat) (hp : p ≠ 0) :
    w.rwin.contains p = true ↔ p ∈ h.take 32 := by
  rw [List.contains_iff_mem]
  constructor
  · intro hm
    obtain ⟨i, hi, e⟩ := List.getElem_of_mem hm
    rw [hr.len] at hi
    have hidx := hr.idx
    have := hr.at_ ((w.idx + 32 - i) % 32) (Nat.mod_lt _ (by decide))
    rw [show (w.idx + 32 - (w.idx + 32 - i) % 32) % 32 = i by omega,
      List.getElem?_eq_getElem (by rw [hr.len]; exact hi), e] at this
    have this := Option.some.inj this
    cases hq : h[(w.idx + 32 - i) % 32]? with
    | none => rw [hq] at this; exact absurd this hp
    | some q =>
      rw [hq] at this
      have : p = q := this
      subst this
      apply List.mem_of_getElem? (i := (w.idx + 32 - i) % 32)
      rw [List.getElem?_take, if_pos (Nat.mod_lt _ (by decide)), hq]
  · intro hm
    obtain ⟨k, hk⟩ := List.getElem?_of_mem hm
    rw [List.getElem?_take] at hk
    split at hk
    next hlt =>
      have := hr.at_ k hlt
      rw [hk] at this
      exact List.mem_of_getElem? this
    next => cases hk

/-- What the check does with a number other than 0. -/
theorem check_nonzero (w : Win) (h : List Nat) (hr : Ring w h) (p : Nat) (hp : p ≠ 0) :
    (p ∈ h.take 32 → check w p = (true, w)) ∧
    (p ∉ h.take 32 → (check w p).1 = false ∧ Ring (check w p).2 (p :: h)) := by
  have hz : ¬ (p = 0 ∧ w.rwin[0]? = some 0 ∧ w.rwin[winSize - 1]? = some 0) := fun e => hp e.1
  constructor
  · intro hm
    unfold check
    rw [if_neg hz, if_pos ((ring_contains w h hr p hp).mpr hm)]
  · intro hm
    unfold check
    rw [if_neg hz, if_neg (mt (ring_contains w h hr p hp).mp hm)]
    exact ⟨rfl, ring_push w h hr p⟩

/-- What it does with any number: refused with the window unchanged, or passed
and remembered. -/
theorem check_any (w : Win) (h : List Nat) (hr : Ring w h) (p : Nat) :
    check w p = (true, w) ∨ ((check w p).1 = false ∧ Ring (check w p).2 (p :: h)) := by
  unfold check
  split
  · exact .inr ⟨rfl, ring_push w h hr p⟩
  · split
    · exact .inl rfl
    · exact .inr ⟨rfl, ring_push w h hr p⟩

/-- C34, the window exactly: for any sequence of requests whose partial IVs are
not 0, a request is accepted exactly if it is authentic and its partial IV is
not among the 32 that passed last. -/
theorem accept_iff (rs : List Req) (hz : ∀ r ∈ rs, r.piv ≠ some 0) (p : Nat) (hp : p ≠ 0) (auth : Bool) :
    (accept (winAfter Win.init rs) ⟨some p, auth⟩).1 = true ↔
      auth = true ∧ p ∉ (Spec.recent [] rs).take 32 := by
  have ring : ∀ (rs : List Req) (w : Win) (h : List Nat), Ring w h →
      (∀ r ∈ rs, r.piv ≠ some 0) → Ring (winAfter w rs) (Spec.recent h rs) := by
    intro rs
    induction rs with
    | nil => intro w h hr _; exact hr
    | cons r rs ih =>
      intro w h hr hz
      obtain ⟨piv, a⟩ := r
      have hz' : ∀ r ∈ rs, r.piv ≠ some 0 := fun r hr => hz r (by simp [hr])
      cases piv with
      | none => exact ih w h hr hz'
      | some q =>
        have hq : q ≠ 0 := by
          intro e; exact hz ⟨some q, a⟩ (by simp) (by rw [e])
        obtain ⟨c1, c2⟩ := check_nonzero w h hr q hq
        rw [winAfter, Spec.recent]
        by_cases hm : q ∈ h.take 32
        · rw [if_pos hm]
          simp only [accept, c1 hm]
          exact ih w h hr hz'
        · rw [if_neg hm]
          obtain ⟨d1, d2⟩ := c2 hm
          exact ih _ _ d2 hz'
  have hr := ring rs Win.init [] ring_init hz
  obtain ⟨c1, c2⟩ := check_nonzero _ _ hr p hp
  by_cases hm : p ∈ (Spec.recent [] rs).take 32
  · simp [accept, c1 hm, hm]
  · obtain ⟨d1, -⟩ := c2 hm
    simp [accept, d1, hm]

/-- The number of requests of a sequence that pass the window. -/
def passes (w : Win) : List Req → Nat
  | [] => 0
  | r :: rs => (match r.piv with
      | none => 0
      | some p => if (check w p).1 then 0 else 1) + passes (accept w r).2 rs

theorem accept_win (w : Win) (q : Nat) (a : Bool) : (accept w ⟨some q, a⟩).2 = (check w q).2 := rfl

/-- Full statement of C34: every request accepted once is refused for ever.  It
is false (see the witnesses below).  What holds, for every history before and
after: a request with a partial IV other than 0 that has been accepted is
refused when it comes again, as long as at most 31 other requests have passed
the window since.  Missing: partial IV 0, later repetitions, restarts, and
requests without a partial IV. -/
theorem replay_refused_partial (before after : List Req) (p : Nat) (hp : p ≠ 0) (a a' : Bool)
    (hacc : (accept (winAfter Win.init before) ⟨some p, a⟩).1 = true)
    (hfew : passes (accept (winAfter Win.init before) ⟨some p, a⟩).2 after ≤ 31) :
    (accept (winAfter Win.init (before ++ ⟨some p, a⟩ :: after)) ⟨some p, a'⟩).1 = false := by
  have wapp : ∀ (x y : List Req) (w : Win), winAfter w (x ++ y) = winAfter (winAfter w x) y := by
    intro x
    induction x with
    | nil => intro y w; rfl
    | cons r x ih => intro y w; exact ih y _
  have ring : ∀ (rs : List Req) (w : Win) (h : List Nat), Ring w h →
      ∃ h', Ring (winAfter w rs) h' ∧ ∃ n, n.length = passes w rs ∧ h' = n ++ h := by
    intro rs
    induction rs with
    | nil => intro w h hr; exact ⟨h, hr, [], rfl, rfl⟩
    | cons r rs ih =>
      intro w h hr
      obtain ⟨piv, a⟩ := r
      cases piv with
      | none =>
        obtain ⟨h', r', n, e1, e2⟩ := ih w h hr
        exact ⟨h', r', n, by simp only [passes]; rw [e1]; simp [accept], e2⟩
      | some q =>
        rw [winAfter, accept_win]
        simp only [passes, accept_win]
        rcases check_any w h hr q with hc | ⟨hc, hr'⟩
        · rw [hc]
          obtain ⟨h', r', n, e1, e2⟩ := ih w h hr
          exact ⟨h', r', n, by simp [e1], e2⟩
        · obtain ⟨h', r', n, e1, e2⟩ := ih _ _ hr'
          exact ⟨h', r', n ++ [q], by simp [hc, e1]; omega, by simp [e2]⟩
  obtain ⟨h1, r1, -⟩ := ring before Win.init [] ring_init
  rw [wapp, winAfter, accept_win]
  rw [accept_win] at hfew
  have hpass : (check (winAfter Win.init before) p).1 = false := by
    simp [accept] at hacc
    exact hacc.1
  rcases check_any _ _ r1 p with hc | ⟨-, hr'⟩
  · rw [hc] at hpass; cases hpass
  obtain ⟨h', r', n, e1, e2⟩ := ring after _ _ hr'
  have hm : p ∈ h'.take 32 := by
    rw [e2]
    apply List.mem_of_getElem? (i := n.length)
    rw [List.getElem?_take, if_pos (by omega)]
    simp
  simp only [accept, (check_nonzero _ _ r' p hp).1 hm]
  rfl

example : accepts Win.init [⟨some 3, true⟩, ⟨some 5, true⟩, ⟨some 3, true⟩, ⟨some 4, true⟩, ⟨some 5, true⟩]
    = [true, true, false, true, false] := by decide

/-- C34 fails for partial IV 0, the first one every sender uses: the request is
accepted again and again. -/
theorem zero_replayed_false :
    accepts Win.init [⟨some 0, true⟩, ⟨some 0, true⟩, ⟨some 0, true⟩] = [true, true, true] := by decide

/-- C34 fails for requests older than the last 32: number 1 is accepted again
after 2 to 33. -/
theorem old_replayed_false :
    (accept (winAfter Win.init ((List.range 33).map fun i => ⟨some (i + 1), true⟩)) ⟨some 1, true⟩).1
      = true := by decide +kernel

/-- C34 fails: the window is moved by requests that are not authentic.  After 32
forged requests the genuine one is accepted again. -/
theorem forged_flush_false :
    accepts Win.init (⟨some 1, true⟩ :: ((List.range 32).map fun i => ⟨some (i + 2), false⟩) ++ [⟨some 1, true⟩])
      = true :: List.replicate 32 false ++ [true] := by decide +kernel

/-- The other side of it: a forged request makes the genuine one with the same
partial IV be refused. -/
theorem forged_blocks_false :
    accepts Win.init [⟨some 5, false⟩, ⟨some 5, true⟩] = [false, false] := by decide

/-- C34 fails for requests without a partial IV, which are not checked at all. -/
theorem no_piv_replayed_false (w : Win) : accepts w [⟨none, true⟩, ⟨none, true⟩] = [true, true] := rfl

end Verif.Oscore
