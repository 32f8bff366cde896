import Verif.Cloud.Props

/-! More properties of a connected device: pings that are answered, refreshed and
refused tokens, restarting. -/

namespace Verif.Cloud

open Verif.EpAddr (Bytes)
open Verif.Rep (Rep b)

/-- **C75.** A ping that is answered, whatever the answer, starts the count of lost
pings anew: the next ping follows 20 seconds later and the device stays as it is. -/
theorem ping_answered {x : Env} {s : Ctx} {r : Resp} (ho : .ping ∈ s.out)
    (hl : has s.status LOGGED_IN = true) (h0 : isOver x.timeouts 0 = false)
    (hc : r.code ≠ 22 ∧ r.code ≠ 17 ∧ r.code ≠ 23) :
    ∃ s', step x s (.done .ping r) = .ok s' ∧ s'.count = 0 ∧ s'.status = s.status ∧ s'.cps = s.cps ∧
      s'.tms = (s.tms.filter fun p => p.1 != .ping) ++ [(.ping, 20000)] := by
  refine ⟨reset .ping 20000 { s with out := s.out.erase .ping, count := 0 }, ?_, rfl, rfl, rfl, rfl⟩
  obtain ⟨c1, c2, c3⟩ := hc
  simp [step, ho, done, pingDone, hl, keepalive, h0, isTimeout, c1, c2, c3]

example : ∃ s', step (env defaultTimeouts) { dev 3 .registered [] [.ping] with count := 4 } (.done .ping ⟨0, none⟩) = .ok s' ∧
    s'.count = 0 := ⟨_, rfl, rfl⟩

/-- Nothing of the registration is left, and no callback that belongs to it. -/
def Forgotten (s : Ctx) : Prop :=
  s.access = [] ∧ s.refresh = [] ∧ s.uid = [] ∧ s.provider = [] ∧ s.status = 0 ∧ s.expires = 0 ∧
  s.ep = none ∧ s.initial = none ∧
  ∀ p ∈ s.tms, p.1 ∈ [Tm.restart, .start, .notify]

theorem clear_forgets {x : Env} {s s' : Ctx} (h : contextClear x s = .ok s') :
    Forgotten s' ∧ s'.cps = .uninitialized ∧ s'.err = .ok ∧ ∀ p ∈ s'.tms, p ∈ s.tms := by
  unfold contextClear reinitStore at h
  generalize EpAddr.init x.lim (x.mem 0) _ _ = q at h
  cases q with
  | ub => cases h
  | ok q =>
    simp only [Out.bind, Out.ok.injEq] at h
    subst h
    refine ⟨⟨rfl, rfl, rfl, rfl, rfl, rfl, rfl, rfl, ?_⟩, rfl, rfl, ?_⟩
    · intro p hp
      have hp' : p ∈ s.tms.filter fun p => p.1 ∉ managerTms ++ deregTms := hp
      rw [List.mem_filter] at hp'
      have h2 := hp'.2
      cases hq : p.1 <;> rw [hq] at h2 <;> first | decide | (exact absurd h2 (by decide))
    · intro p hp
      have hp' : p ∈ s.tms.filter fun p => p.1 ∉ managerTms ++ deregTms := hp
      exact (List.mem_filter.1 hp').1

theorem contextClear_sent {x : Env} {s s' : Ctx} (h : contextClear x s = .ok s') : s'.sent = s.sent := by
  unfold contextClear reinitStore at h
  generalize EpAddr.init x.lim (x.mem 0) _ _ = q at h
  cases q with
  | ub => cases h
  | ok q =>
    simp only [Out.bind, Out.ok.injEq] at h
    subst h
    rfl

theorem notify_forgotten {s : Ctx} (h : Forgotten s) : Forgotten (reset .notify 0 s) := by
  obtain ⟨h1, h2, h3, h4, h5, h6, h7, h8, h9⟩ := h
  refine ⟨h1, h2, h3, h4, h5, h6, h7, h8, ?_⟩
  intro p hp
  have hp' : p ∈ (s.tms.filter fun p => p.1 != .notify) ++ [(.notify, 0)] := hp
  rw [List.mem_append, List.mem_filter, List.mem_singleton] at hp'
  rcases hp' with ⟨hp', _⟩ | rfl
  · exact h9 p hp'
  · decide

/-- **C74.** If the cloud refuses the refresh token as unauthorized, the device forgets
all tokens, the user and the pending tries: it is as if it had never been registered. -/
theorem unauthorized_refresh_forgets {x : Env} {s s' : Ctx} {r : Resp} (ho : .mRefresh ∈ s.out)
    (hc : r.code = 6) (h : step x s (.done .mRefresh r) = .ok s') : Forgotten s' ∧ (.notify, 0) ∈ s'.tms := by
  rw [step, if_pos ho] at h
  have h' : mRefreshDone x { s with out := s.out.erase .mRefresh } r = .ok s' := h
  have he : refreshError r.code = .unauthorized := by rw [hc]; rfl
  unfold mRefreshDone refreshHandler at h'
  rw [if_pos (by rw [he]; decide), he] at h'
  simp only [Out.bind, refreshFail, if_true] at h'
  generalize hq : contextClear x _ = q at h'
  cases q with
  | ub => cases h'
  | ok q =>
    simp only [Out.ok.injEq] at h'
    subst h'
    exact ⟨notify_forgotten (clear_forgets hq).1, by simp [reset]⟩

/-- **C74.** If the cloud refuses the access token as unauthorized, the device forgets
that token, and everything else with it unless there is a refresh token to be used. -/
theorem unauthorized_login_forgets {x : Env} {s s' : Ctx} {r : Resp} (ho : .mLogin ∈ s.out)
    (hr : has s.status REGISTERED = true) (hc : r.code = 6)
    (h : step x s (.done .mLogin r) = .ok s') :
    s'.access = [] ∧ (.notify, 0) ∈ s'.tms ∧
    (Forgotten s' ∨ s'.refresh = s.refresh ∧ s.refresh ≠ [] ∧ s'.err = .unauthorized ∧ ∃ d, (.refresh, d) ∈ s'.tms) := by
  rw [step, if_pos ho] at h
  have h' : mLoginDone x { s with out := s.out.erase .mLogin } r = .ok s' := h
  have he : loginError r.code = .unauthorized := by rw [hc]; rfl
  unfold mLoginDone loginHandler at h'
  have hr' : has (cancel [.login] { s with out := s.out.erase .mLogin }).status REGISTERED = true := hr
  simp only [hr', he] at h'
  have h2 : loginUnauthorized x (on FAILURE (cancel [.login] { s with out := s.out.erase .mLogin })) = .ok s' := by
    simpa using h'
  generalize hz : on FAILURE (cancel [.login] { s with out := s.out.erase .mLogin }) = z at h2
  have hzr : z.refresh = s.refresh := by rw [← hz]; rfl
  unfold loginUnauthorized at h2
  change ((if ({ setCps .failed .unauthorized z with access := [], expires := 0 } : Ctx).refresh = [] then
      contextClear x { setCps .failed .unauthorized z with access := [], expires := 0 }
    else (schedule x { setCps .failed .unauthorized z with access := [], expires := 0 } .refresh false).bind fun q =>
      if q.1 then .ok q.2 else contextClear x q.2).bind fun s => .ok (reset .notify 0 s)) = .ok s' at h2
  generalize hy : ({ setCps .failed .unauthorized z with access := [], expires := 0 } : Ctx) = y at h2
  have hyr : y.refresh = s.refresh := by rw [← hy]; exact hzr
  have hya : y.access = [] := by rw [← hy]
  have hye : y.err = .unauthorized := by rw [← hy]; rfl
  have clr : ∀ {w : Ctx}, ((contextClear x w).bind fun s => .ok (reset .notify 0 s)) = .ok s' →
      s'.access = [] ∧ (.notify, 0) ∈ s'.tms ∧ Forgotten s' := by
    intro w hw
    generalize hq : contextClear x w = q at hw
    cases q with
    | ub => cases hw
    | ok q =>
      simp only [Out.bind, Out.ok.injEq] at hw
      subst hw
      have := notify_forgotten (clear_forgets hq).1
      exact ⟨this.1, by simp [reset], this⟩
  by_cases h0 : y.refresh = []
  · rw [if_pos h0] at h2
    obtain ⟨a, b, c⟩ := clr h2
    exact ⟨a, b, .inl c⟩
  · rw [if_neg h0] at h2
    have hsch : ∀ ok w, schedule x y .refresh false = .ok (ok, w) → ok = true →
        w.access = y.access ∧ w.refresh = y.refresh ∧ w.err = y.err ∧ ∃ d, (.refresh, d) ∈ w.tms := by
      intro ok w hw hk
      unfold schedule setRetry defaultAction counted at hw
      simp only [if_true, Bool.false_eq_true, if_false] at hw
      revert hw
      cases x.custom with
      | some c =>
        cases c with
        | none => intro hw; cases hw; cases hk
        | some c => intro hw; cases hw; exact ⟨rfl, rfl, rfl, c.1, by simp [reset]⟩
      | none =>
        simp only
        split
        · intro hw
          generalize EpAddr.selectNext _ = q at hw
          cases q with
          | ub => cases hw
          | ok q => cases hw; cases hk
        · split
          · intro hw; cases hw
          · intro hw; cases hw; exact ⟨rfl, rfl, rfl, _, List.mem_append_right _ (List.mem_singleton.2 rfl)⟩
    generalize hq : schedule x y .refresh false = q at h2
    cases q with
    | ub => cases h2
    | ok q =>
      obtain ⟨ok, w⟩ := q
      cases ok with
      | false =>
        have h3 : ((contextClear x w).bind fun s => .ok (reset .notify 0 s)) = .ok s' := h2
        obtain ⟨a, b, c⟩ := clr h3
        exact ⟨a, b, .inl c⟩
      | true =>
        obtain ⟨a, b, c, d, hd⟩ := hsch true w hq rfl
        have h3 : Out.ok (reset .notify 0 w) = .ok s' := h2
        cases h3
        refine ⟨by show w.access = []; rw [a, hya], by simp [reset], .inr ⟨by show w.refresh = _; rw [b, hyr], by rw [← hyr]; exact h0,
          by show w.err = _; rw [c, hye], d, ?_⟩⟩
        simp [reset, hd]

example : (∃ s', step (env defaultTimeouts) (dev 1 .registered [(.refresh, 7)] [.mRefresh]) (.done .mRefresh ⟨6, none⟩) = .ok s' ∧
      s'.tms = [(.notify, 0)]) ∧
    ∃ s', step (env defaultTimeouts) (dev 1 .registered [] [.mLogin]) (.done .mLogin ⟨6, none⟩) = .ok s' ∧
      s'.refresh ≠ [] ∧ s'.tms.map (·.1) = [.refresh, .notify] :=
  ⟨⟨_, rfl, by decide⟩, _, rfl, by decide, by decide⟩

/-- **C75.** A refresh that succeeds replaces both tokens and the lifetime by those of
the response, and a login with them is pending. -/
theorem refresh_replaces {x : Env} {s : Ctx} {r : Resp} {p : Rep} {a f : Bytes} {e : Int} {t : Nat}
    (ho : .mRefresh ∈ s.out) (hr : has s.status REGISTERED = true)
    (h0 : x.timeouts[0]? = some t) (ht : 1000 ≤ t) (hcu : x.custom = none)
    (hc : r.code < 5) (hp : r.payload = some p) (ha : strOf p "accesstoken" = some a)
    (hf : strOf p "refreshtoken" = some f) (he : intOf p "expiresin" = some e) :
    ∃ s' d, step x s (.done .mRefresh r) = .ok s' ∧ s'.access = a ∧ s'.refresh = f ∧ s'.expires = e ∧
      s'.uid = s.uid ∧ has s'.status REGISTERED = true ∧ s'.err = .ok ∧ s'.count = 0 ∧ s'.rcount = 0 ∧
      (.login, d) ∈ s'.tms ∧ t / 2 ≤ d ∧ d < t ∧ (∀ d', (.refresh, d') ∉ s'.tms) := by
  have he1 : refreshError r.code = .ok := by
    have h1 : isConn r.code = false := by
      simp only [isConn, isTimeout, isConnErr, Bool.or_eq_false_iff, beq_eq_false_iff_ne]; omega
    unfold refreshError
    rw [if_neg (by simp [h1]), if_neg (by omega), if_neg (by omega)]
  generalize hz : cancel [.refresh] { s with out := s.out.erase .mRefresh } = z
  have hzr : has z.status REGISTERED = true := by rw [← hz]; exact hr
  have hzu : z.uid = s.uid := by rw [← hz]; rfl
  have hzt : ∀ d', (Tm.refresh, d') ∉ z.tms := by
    intro d' h
    rw [← hz] at h
    have h' : (Tm.refresh, d') ∈ s.tms.filter fun p => p.1 ∉ [Tm.refresh] := h
    rw [List.mem_filter] at h'
    simp at h'
  have hh : refreshHandler z r = .ok (.ok, on REFRESHED (retryReset (setExpires e { z with access := a, refresh := f }))) := by
    unfold refreshHandler
    rw [if_neg (by simp [he1]), if_neg (by simp [hzr]), hp]
    simp only [refreshResponse, ha, hf, he]
  obtain ⟨g1, g2, g3, g4, g5⟩ := setExpires_st e { z with access := a, refresh := f }
  have gt : (setExpires e { z with access := a, refresh := f }).tms = z.tms ∧
      (setExpires e { z with access := a, refresh := f }).uid = z.uid ∧
      (setExpires e { z with access := a, refresh := f }).access = a ∧
      (setExpires e { z with access := a, refresh := f }).refresh = f := by
    unfold setExpires; split <;> exact ⟨rfl, rfl, rfl, rfl⟩
  have gs : has (setExpires e { z with access := a, refresh := f }).status REGISTERED = true := by
    rw [g1.2]; exact hzr
  generalize hy : setExpires e { z with access := a, refresh := f } = y at *
  have hov : isOver x.timeouts 0 = false := by
    unfold isOver
    rw [show (0 : UInt8).toNat = 0 from rfl, h0]
    simp; omega
  have hgd : x.timeouts.getD 0 0 = t := by
    rw [List.getD_eq_getElem?_getD, h0]; rfl
  have hsch : schedule x (on REFRESHED (retryReset y)) .login false =
      .ok (true, reset .login (t / 2 + x.rnd % (t / 2)) { on REFRESHED (retryReset y) with timeout := t / 1000 }) := by
    unfold schedule setRetry defaultAction counted
    rw [if_neg (by decide), hcu]
    simp only [Bool.false_eq_true, if_false, hov, show (0 : UInt8).toNat = 0 from rfl, hgd]
    rw [if_neg (by omega)]
    rfl
  have hm := Nat.mod_lt x.rnd (show 0 < t / 2 by omega)
  refine ⟨reset .notify 0 (setErr .ok (reset .login (t / 2 + x.rnd % (t / 2)) { on REFRESHED (retryReset y) with timeout := t / 1000 })),
    t / 2 + x.rnd % (t / 2), ?_, gt.2.2.1, gt.2.2.2, g5, ?_, ?_, rfl, rfl, rfl, ?_, by omega, by omega, ?_⟩
  · rw [step, if_pos ho]
    show mRefreshDone _ _ _ = _
    unfold mRefreshDone
    rw [hz, hh]
    simp only [Out.bind, hsch, if_true]
  · show y.uid = s.uid
    rw [gt.2.1]; exact hzu
  · show has (y.status ||| REFRESHED) REGISTERED = true
    revert gs
    generalize y.status = st
    revert st
    exact forall_u8 (by decide +kernel)
  · simp [reset, setErr]
  · intro d' hd
    simp [reset, setErr, on, retryReset] at hd
    exact hzt d' (gt.1 ▸ hd)

example : ∃ s', step (env defaultTimeouts) (dev 1 .registered [] [.mRefresh]) (.done .mRefresh (tokens 100)) = .ok s' ∧
    s'.tms.map (·.1) = [.login, .notify] ∧ s'.expires = 100 := ⟨_, rfl, by decide, by decide⟩

/-- **C74.** When the session of a registered device ends, everything that was planned
for the old connection is dropped and the device starts again; tokens and registration
stay. -/
theorem session_end_restarts {s : Ctx} (x : Env) (hm : s.manager = true) (he : s.ep.isSome)
    (hc : s.conn = true) (hr : has s.status REGISTERED = true) :
    ∃ s', step x s (.session false) = .ok s' ∧ (.start, 0) ∈ s'.tms ∧
      (∀ p ∈ s'.tms, p = (.start, 0) ∨ p ∈ s.tms ∧ p.1 = .restart) ∧
      s'.access = s.access ∧ s'.refresh = s.refresh ∧ s'.status = s.status ∧ s'.conn = false := by
  refine ⟨reset .start 0 (cancel (managerTms ++ deregTms) { s with conn := false }), ?_, ?_, ?_, rfl, rfl, rfl, rfl⟩
  · rw [step]
    unfold session
    rw [if_neg (by rw [hm, hc]; cases h : s.ep <;> simp_all), if_neg (by simp), if_pos hr]
    simp [restart, hm]
  · simp [reset]
  · intro p hp
    have hp' : p ∈ ((s.tms.filter fun p => p.1 ∉ managerTms ++ deregTms).filter fun p => p.1 != .start) ++ [(Tm.start, 0)] := hp
    rw [List.mem_append, List.mem_filter, List.mem_filter, List.mem_singleton] at hp'
    rcases hp' with ⟨⟨h1, h2⟩, h3⟩ | h
    · refine .inr ⟨h1, ?_⟩
      cases hq : p.1 <;> rw [hq] at h2 h3 <;>
        first | rfl | (exact absurd h2 (by decide)) | (exact absurd h3 (by decide))
    · exact .inl h

example : ∃ s', step (env defaultTimeouts)
    { dev 3 .registered [(.ping, 5), (.refresh, 9), (.notify, 0)] [] with ep := some [115], conn := true, manager := true }
    (.session false) = .ok s' ∧ s'.tms = [(.start, 0)] := ⟨_, rfl, by decide⟩

/-- **C77.** If the login that precedes a deregistration fails, the cloud is not asked
to deregister, but the device forgets its registration all the same. -/
theorem deregister_login_failed {x : Env} {s s' : Ctx} {r : Resp} (ho : .dLogin ∈ s.out)
    (hl : has s.status LOGGED_IN = false) (hc : 5 ≤ r.code) (h : step x s (.done .dLogin r) = .ok s') :
    Forgotten s' ∧ s'.sent = s.sent ∧ s'.cps = .uninitialized := by
  rw [step, if_pos ho] at h
  have h' : dLoginDone x { s with out := s.out.erase .dLogin } r = .ok s' := h
  have he : loginError r.code ≠ .ok := by
    unfold loginError
    repeat' split
    all_goals first | decide | omega
  unfold dLoginDone loginResult loginHandler at h'
  rw [if_pos he] at h'
  simp only at h'
  have hl' : has (setCps .failed (loginError r.code) (on FAILURE { s with out := s.out.erase .dLogin })).status LOGGED_IN = false := by
    show has (s.status ||| FAILURE) LOGGED_IN = false
    revert hl
    generalize s.status = st
    revert st
    exact forall_u8 (by decide +kernel)
  rw [if_pos (by simp [hl'])] at h'
  generalize hq : contextClear x _ = q at h'
  cases q with
  | ub => cases h'
  | ok q =>
    simp only [Out.bind, Out.ok.injEq] at h'
    subst h'
    obtain ⟨⟨h1, h2, h3, h4, h5, h6, h7, h8, h9⟩, h10, h11, _⟩ := clear_forgets hq
    refine ⟨⟨h1, h2, h3, h4, ?_, h6, h7, h8, h9⟩, ?_, h10⟩
    · show q.status &&& _ = 0
      rw [h5]; decide
    · show q.sent = s.sent
      rw [contextClear_sent hq]
      rfl

example : ∃ s', step (env defaultTimeouts) (dev 1 .deregistering [] [.dLogin]) (.done .dLogin ⟨7, none⟩) = .ok s' ∧
    s'.status = 0 := ⟨_, rfl, by decide⟩

end Verif.Cloud
