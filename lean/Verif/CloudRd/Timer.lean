import Verif.CloudRd.Model

/-! The callback that publishes everything again every hour (C105). -/

namespace Verif.CloudRd

/-- What the callback depends on. -/
def key (s : St) : Bool × Bool × Bool := (s.c.timer, s.c.loggedIn, s.c.unlimited)

theorem bind_ok {α β : Type} {x : Out α} {f : α → Out β} {y : β} (h : x.bind f = .ok y) :
    ∃ a, x = .ok a ∧ f a = .ok y := by
  cases x with
  | ub => cases h
  | ok a => exact ⟨a, rfl, h⟩

theorem rdPublish_key {env : Env} {l : List Link} {s s' : St} (h : rdPublish env l s = .ok s') : key s' = key s := by
  unfold rdPublish at h
  split at h
  · cases h; split <;> rfl
  · obtain ⟨x, _, h⟩ := bind_ok h
    cases h; split <;> rfl

theorem cloudPublish_key {env : Env} {s s' : St} (h : cloudPublish env s = .ok s') : key s' = key s := by
  unfold cloudPublish at h
  split at h
  · cases h; rfl
  · split at h
    · cases h; rfl
    · exact rdPublish_key h

theorem cloudDelete_key {env : Env} {s s' : St} (h : cloudDelete env s = .ok s') : key s' = key s := by
  unfold cloudDelete at h
  split at h
  · cases h
  · split at h
    · cases h; rfl
    · split at h
      · cases h; rfl
      · cases h; rfl

theorem acceptAll_key : ∀ (l : List (Option Bytes × Option Int)) {s s' : St}, acceptAll l s = .ok s' → key s' = key s
  | [], s, s', h => by cases h; rfl
  | (some _, some i) :: t, s, s', h => by
    unfold acceptAll at h
    obtain ⟨x, _, h⟩ := bind_ok h
    split at h
    · exact acceptAll_key t h
    · exact (acceptAll_key t h).trans rfl
  | (none, _) :: t, s, s', h => by unfold acceptAll at h; exact acceptAll_key t h
  | (some _, none) :: t, s, s', h => by unfold acceptAll at h; exact acceptAll_key t h

theorem statusPub_key {env : Env} {s s' : St} (h : statusPub env s = .ok s') : key s' = key s := by
  unfold statusPub at h
  split at h
  · cases h; rfl
  · exact cloudPublish_key h

theorem statusDel_key {env : Env} {s s' : St} (h : statusDel env s = .ok s') : key s' = key s := by
  unfold statusDel at h
  split at h
  · cases h; rfl
  · exact cloudDelete_key h

theorem deleteResource_key {env : Env} {r : Nat} {s s' : St} (h : deleteResource env r s = .ok s') : key s' = key s := by
  unfold deleteResource at h
  dsimp only at h
  split at h
  · cases h; rfl
  · split at h
    · cases h; rfl
    · exact (cloudDelete_key h).trans rfl

theorem republish_key {env : Env} {s s' : St} (h : republish env s = .ok s') : key s' = key s :=
  (cloudPublish_key h).trans rfl

/-- What an event does to the callback: it is removed by a logout and by a reset, it is set
by a login (not by a refresh of the token) unless publications do not expire, and nothing
else touches it. -/
theorem hourly_step {env : Env} {s s' : St} {o : Op} (h : step env s o = .ok s') :
    s'.c.unlimited = s.c.unlimited ∧
    match o with
    | .status false _ => s'.c.timer = false ∧ s'.c.loggedIn = false
    | .status true false => s'.c.timer = !s.c.unlimited ∧ s'.c.loggedIn = true
    | .status true true => s'.c.timer = s.c.timer ∧ s'.c.loggedIn = true
    | .reset => s'.c.timer = false ∧ s'.c.loggedIn = s.c.loggedIn
    | _ => s'.c.timer = s.c.timer ∧ s'.c.loggedIn = s.c.loggedIn := by
  have same : key s' = key s → s'.c.unlimited = s.c.unlimited ∧ s'.c.timer = s.c.timer ∧ s'.c.loggedIn = s.c.loggedIn := by
    intro hk
    simp only [key, Prod.mk.injEq] at hk
    exact ⟨hk.2.2, hk.1, hk.2.1⟩
  cases o with
  | create r u => cases h; exact ⟨rfl, rfl, rfl⟩
  | add r ins =>
    obtain ⟨x, hx, h⟩ := bind_ok (show (addResource env ins r s).bind _ = _ from h)
    cases h
    apply same
    unfold addResource at hx
    split at hx
    · cases hx; rfl
    · split at hx
      · cases hx; rfl
      · dsimp only at hx
        split at hx
        · cases hx; rfl
        · obtain ⟨y, hy, hx⟩ := bind_ok hx
          cases hx
          exact (cloudPublish_key hy).trans rfl
  | remove r => exact same (deleteResource_key h)
  | destroy r =>
    obtain ⟨x, hx, h⟩ := bind_ok (show (deleteResource env r s).bind _ = _ from h)
    cases h
    exact same (show key x = key s from deleteResource_key hx)
  | freeCollection r => cases h; exact ⟨rfl, rfl, rfl⟩
  | publish =>
    obtain ⟨x, hx, h⟩ := bind_ok (show (republish env s).bind _ = _ from h)
    exact same ((statusDel_key h).trans (republish_key hx))
  | hourly =>
    unfold step at h
    dsimp only at h
    split at h
    · exact same (republish_key h)
    · cases h; exact ⟨rfl, rfl, rfl⟩
  | pubAnswer ok ls =>
    unfold step publishAnswer at h
    dsimp only at h
    split at h
    · cases h; exact ⟨rfl, rfl, rfl⟩
    · split at h
      · cases h; exact ⟨rfl, rfl, rfl⟩
      · split at h
        · cases h; exact ⟨rfl, rfl, rfl⟩
        · exact same (acceptAll_key _ h)
  | delAnswer i =>
    unfold step deleteAnswer at h
    dsimp only at h
    split at h
    · cases h; exact ⟨rfl, rfl, rfl⟩
    · split at h
      · cases h; exact ⟨rfl, rfl, rfl⟩
      · exact same (cloudDelete_key h)
  | status l f =>
    unfold step statusChanged at h
    dsimp only at h
    cases l with
    | false => simp at h; cases h; exact ⟨rfl, rfl, rfl⟩
    | true =>
      cases f with
      | true => simp at h; cases h; exact ⟨rfl, rfl, rfl⟩
      | false =>
        rw [if_neg (by simp), if_neg (by simp)] at h
        obtain ⟨x, hx, h⟩ := bind_ok h
        obtain ⟨y, hy, h⟩ := bind_ok h
        cases h
        have := (statusDel_key hy).trans (statusPub_key hx)
        simp only [key, Prod.mk.injEq] at this
        refine ⟨this.2.2, ?_, this.2.1⟩
        show decide (¬ y.c.unlimited = true) = !s.c.unlimited
        rw [this.2.2]
        cases s.c.unlimited <;> rfl
  | state n u => cases h; exact ⟨rfl, rfl, rfl⟩
  | reset => cases h; exact ⟨rfl, rfl, rfl⟩

/-- C105: in every history the hourly callback is set only while the device is logged in
and publications expire. -/
theorem hourly_only_logged_in (env : Env) (u : Bool) (ops : List Op) (s : St) (h : run env (init u) ops = .ok s) :
    s.c.unlimited = u ∧ (s.c.timer = true → s.c.loggedIn = true ∧ u = false) := by
  have key : ∀ (ops : List Op) (s0 s : St), s0.c.unlimited = u ∧ (s0.c.timer = true → s0.c.loggedIn = true ∧ u = false) →
      run env s0 ops = .ok s → s.c.unlimited = u ∧ (s.c.timer = true → s.c.loggedIn = true ∧ u = false) := by
    intro ops
    induction ops with
    | nil => intro s0 s h0 h; cases h; exact h0
    | cons o ops ih =>
      intro s0 s h0 h
      obtain ⟨s1, h1, h2⟩ := bind_ok (show (step env s0 o).bind _ = _ from h)
      refine ih s1 s ?_ h2
      obtain ⟨k1, k2⟩ := hourly_step h1
      refine ⟨k1.trans h0.1, ?_⟩
      split at k2
      · rw [k2.1]; intro hf; cases hf
      · rw [k2.1, k2.2, h0.1]; intro hf; exact ⟨rfl, by simpa using hf⟩
      · rw [k2.1, k2.2]; intro hf; exact ⟨rfl, (h0.2 hf).2⟩
      · rw [k2.1]; intro hf; cases hf
      · rw [k2.1, k2.2]; exact h0.2
  exact key ops (init u) s ⟨rfl, by intro hf; cases hf⟩ h

/-- A login sets the callback, a logout removes it. -/
example : (∃ s, run ⟨fun _ => true, true, 1000⟩ (init false) [.status true false] = .ok s ∧ s.c.timer = true) ∧
    (∃ s, run ⟨fun _ => true, true, 1000⟩ (init false) [.status true false, .status false false] = .ok s ∧ s.c.timer = false) :=
  ⟨⟨_, rfl, rfl⟩, _, rfl, rfl⟩

end Verif.CloudRd
