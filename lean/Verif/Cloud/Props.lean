import Verif.Cloud.RegLemmas
/-!
Properties of the cloud client: retries, status, tokens, redirection, deregistering
(C72, C74 to C78).
-/
namespace Verif.Cloud

open Verif.EpAddr (Bytes Addrs View Inv)
open Verif.Rep (Rep Val b getByTypeAndKey)

/-! ## C72 -/

/-- **C72.** Setting the timeouts of retries succeeds exactly for at most six that are
not zero, or for NULL, which means the default ones; what was set is what is read, and
a call that is refused changes nothing. -/
theorem timeouts_kept (cur : List Nat) (t : Option (List Nat)) :
    match t with
    | none => setTimeouts cur t = (true, [2000, 4000, 8000, 16000, 32000, 64000])
    | some t =>
      if t.length ≤ 6 ∧ 0 ∉ t then
        ∃ c, setTimeouts cur (some t) = (true, c) ∧ getTimeouts c 6 = some t ∧
          ∀ n, getTimeouts c n = if n < t.length then none else some t
      else setTimeouts cur (some t) = (false, cur) := by
  cases t with
  | none => rfl
  | some t =>
    simp only
    by_cases hl : t.length ≤ 6
    · by_cases h0 : 0 ∈ t
      · rw [if_neg (fun h => h.2 h0)]
        unfold setTimeouts
        simp only [gt_iff_lt, Nat.not_lt.2 hl, if_false]
        rw [if_pos (by simpa using h0)]
      · rw [if_pos ⟨hl, h0⟩]
        have hw : (t ++ List.replicate (6 - t.length) 0).takeWhile (· != 0) = t := by
          rw [List.takeWhile_append_of_pos (by intro a ha; simp; rintro rfl; exact h0 ha)]
          cases 6 - t.length with
          | zero => simp
          | succ n => simp [List.replicate_succ]
        refine ⟨t ++ List.replicate (6 - t.length) 0, ?_, ?_, ?_⟩
        · unfold setTimeouts
          simp only [gt_iff_lt, Nat.not_lt.2 hl, if_false]
          rw [if_neg (by simpa using h0)]
        · unfold getTimeouts; rw [hw]; simp; omega
        · intro n; unfold getTimeouts; rw [hw]
    · rw [if_neg (fun h => hl h.1)]
      unfold setTimeouts
      simp only [gt_iff_lt, Nat.not_le.1 hl, if_true]

example : setTimeouts defaultTimeouts (some [3000, 1000]) = (true, [3000, 1000, 0, 0, 0, 0]) ∧
    getTimeouts [3000, 1000, 0, 0, 0, 0] 2 = some [3000, 1000] := by decide
example : setTimeouts defaultTimeouts (some [3000, 0]) = (false, defaultTimeouts) := by decide

/-- The counter of an action. -/
def counter (s : Ctx) (t : Tm) : UInt8 := if t = .refresh then s.rcount else s.count

/-- **C72 (partial).** With timeouts `t` of at least a second and no schedule of the
application, the first try (`retry = false`) waits between half of the first timeout and
all of it, the `k`-th retry between half of `t[k]` and all of it, and each request may
take `t[k]` in whole seconds; there is exactly one pending callback of the action.
After the last timeout nothing is scheduled and the next server is selected.  Missing:
timeouts below a second, see `short_timeout_ub`, and an empty list, see
`no_timeout_false`. -/
theorem retry_delay_partial {big : Prop} {x : Env} {s : Ctx} {cur c t : List Nat} {tm : Tm} {retry : Bool}
    (hs : setTimeouts cur (some t) = (true, c)) (hx : x.timeouts = c) (hc : x.custom = none)
    (ht : ∀ v ∈ t, 1000 ≤ v) (hg : Good x.lim big s)
    (k : Nat) (hk : k = if retry then (counter s tm + 1).toNat else 0) :
    ∃ ok s', schedule x s tm retry = .ok (ok, s') ∧ (counter s' tm).toNat = k ∧
      (∀ tm', (tm' = .refresh ↔ tm ≠ .refresh) → counter s' tm' = counter s tm') ∧
      ok = decide (k < t.length) ∧
      (∀ v, t[k]? = some v → ∃ d, s'.tms = (s.tms.filter fun p => p.1 != tm) ++ [(tm, d)] ∧
        v / 2 ≤ d ∧ d < v ∧ s'.timeout = v / 1000 ∧ s'.servers = s.servers) ∧
      (t.length ≤ k → s'.tms = s.tms ∧
        EpAddr.Does x.lim (EpAddr.servers s.servers) .next (decide (1 < s.servers.items.length))
          (EpAddr.servers s'.servers)) := by
  have hcl : c = t ++ List.replicate (6 - t.length) 0 ∧ t.length ≤ 6 := by
    unfold setTimeouts at hs
    simp only at hs
    split at hs
    · cases hs
    · split at hs
      · cases hs
      · simp only [Prod.mk.injEq, true_and] at hs; exact ⟨hs.symm, by omega⟩
  have hq : ∃ cnt s1, counted s tm retry = (cnt, s1) ∧ cnt.toNat = k ∧ (counter s1 tm) = cnt ∧ s1.tms = s.tms ∧
      s1.servers = s.servers ∧ s1.rcount = (if tm = .refresh then cnt else s.rcount) ∧
      s1.count = (if tm = .refresh then s.count else cnt) := by
    unfold counted
    by_cases hr : tm = .refresh
    · rw [if_pos hr]
      cases retry with
      | true => exact ⟨_, _, rfl, by rw [hk]; simp [counter, hr], by simp [counter, hr], rfl, rfl, by simp [hr], by simp [hr]⟩
      | false => exact ⟨_, _, rfl, by rw [hk]; simp, by simp [counter, hr], rfl, rfl, by simp [hr], by simp [hr]⟩
    · rw [if_neg hr]
      cases retry with
      | true => exact ⟨_, _, rfl, by rw [hk]; simp [counter, hr], by simp [counter, hr], rfl, rfl, by simp [hr], by simp [hr]⟩
      | false => exact ⟨_, _, rfl, by rw [hk]; simp, by simp [counter, hr], rfl, rfl, by simp [hr], by simp [hr]⟩
  obtain ⟨cnt, s1, hq, hcnt, hcn, htm, hsv, hrc, hco⟩ := hq
  have hget : ∀ v, t[k]? = some v → x.timeouts[cnt.toNat]? = some v := by
    intro v hv
    rw [hx, hcl.1, hcnt, List.getElem?_append_left (List.getElem?_eq_some_iff.1 hv).1]; exact hv
  by_cases hlt : k < t.length
  · have hv : t[k]? = some t[k] := List.getElem?_eq_getElem hlt
    have hge := ht _ (List.getElem_mem hlt)
    have hxv := hget _ hv
    have hno : isOver x.timeouts cnt = false := by
      simp only [isOver, hxv]; simp; omega
    refine ⟨true, reset tm (t[k] / 2 + x.rnd % (t[k] / 2)) { s1 with timeout := t[k] / 1000 }, ?_, ?_, ?_, by simp [hlt], ?_, ?_⟩
    · unfold schedule
      simp only [hq, setRetry, hc, defaultAction, hno]
      simp only [Bool.false_eq_true, if_false, List.getD_eq_getElem?_getD, hxv, Option.getD_some,
        Nat.not_lt.2 hge, Out.bind]
    · show (counter s1 tm).toNat = k
      rw [hcn, hcnt]
    · intro tm' h'
      show counter s1 tm' = _
      simp only [counter]
      by_cases hr : tm = .refresh
      · have : ¬ tm' = .refresh := fun e => h'.1 e hr
        rw [if_neg this, if_neg this, hco, if_pos hr]
      · have := h'.2 hr
        rw [if_pos this, if_pos this, hrc, if_neg hr]
    · intro v hv'
      rw [hv] at hv'; cases hv'
      refine ⟨_, by simp only [reset]; rw [htm], by omega, ?_, rfl, hsv⟩
      have := Nat.mod_lt x.rnd (show t[k] / 2 > 0 by omega)
      omega
    · intro h; omega
  · have hov : isOver x.timeouts cnt = true := by
      unfold isOver
      rw [hx, hcl.1, hcnt]
      cases hz : (t ++ List.replicate (6 - t.length) 0)[k]? with
      | none => rfl
      | some v =>
        simp only
        rw [List.getElem?_append_right (by omega)] at hz
        have := List.mem_of_getElem? hz
        rw [List.mem_replicate] at this
        simp [this.2]
    obtain ⟨ok, a', e, hI, hD⟩ := EpAddr.step_refines hg.2.inv (o := .selectNext) rfl
    simp only [EpAddr.step] at e
    refine ⟨false, withServers s1 a', ?_, ?_, ?_, by simp [hlt], ?_, ?_⟩
    · unfold schedule
      simp only [hq, setRetry, hc, defaultAction, hov, if_true, hsv, e, Out.bind]
    · show (counter s1 tm).toNat = k
      rw [hcn, hcnt]
    · intro tm' h'
      show counter s1 tm' = _
      simp only [counter]
      by_cases hr : tm = .refresh
      · have : ¬ tm' = .refresh := fun e => h'.1 e hr
        rw [if_neg this, if_neg this, hco, if_pos hr]
      · have := h'.2 hr
        rw [if_pos this, if_pos this, hrc, if_neg hr]
    · intro v hv
      exact absurd (List.getElem?_eq_some_iff.1 hv).1 hlt
    · intro _
      refine ⟨htm, ?_⟩
      have hok := hD.2.2
      have hl : (EpAddr.servers s.servers).all.length = s.servers.items.length := by simp [EpAddr.servers]
      rw [hl] at hok
      show EpAddr.Does _ _ _ _ (EpAddr.servers a')
      rw [← hok]; exact hD

/-- A device to try things on: one server, a token, registered or not. -/
def dev (st : UInt8) (cps : Cps) (tms : List (Tm × Nat)) (out : List Req) : Ctx :=
  { status := st, cps := cps, access := [97], refresh := [98], uid := [99], manager := true, tms := tms, out := out,
    servers := { items := [⟨0, [115], .uuid (List.replicate 16 1)⟩], sel := some 0, next := 1, calls := 1 },
    initial := some [115] }

/-- An environment in which everything can be sent. -/
def env (ts : List Nat) : Env := { timeouts := ts, resolves := fun _ => true, mem := fun _ => true, lim := 100 }

theorem dev_good {big : Prop} {st : UInt8} {cps : Cps} {tms : List (Tm × Nat)} {out : List Req}
    (h : has st LOGGED_IN = true → has st REGISTERED = true) : Good 100 big (dev st cps tms out) := by
  refine ⟨⟨h, fun _ => ⟨by simp [dev], by simp [dev]⟩⟩,
    ⟨⟨by simp [dev], by simp [dev], by simp [dev], ?_, by simp [dev], by simp [dev]⟩, ?_, by simp [dev]⟩, by simp [dev], by simp [dev]⟩
  · intro i hi; simp [dev] at hi; subst hi; decide
  · intro i hi; simp [dev] at hi; subst hi; exact ⟨_, rfl⟩

example : setTimeouts defaultTimeouts (some [3000, 1000]) = (true, [3000, 1000, 0, 0, 0, 0]) ∧
    (∀ v ∈ [3000, 1000], 1000 ≤ v) ∧ Good 100 False (dev 0 .ready [] []) ∧
    ∃ s', schedule (env [3000, 1000, 0, 0, 0, 0]) (dev 0 .ready [] []) .register true = .ok (true, s') ∧
      s'.tms = [(.register, 500)] :=
  ⟨rfl, by decide, dev_good (by decide), _, rfl, rfl⟩

/-- Disagreement with the code: a timeout of less than a second is accepted, but the
first use of it fails an assertion (without assertions the request gets no timeout, and
one of 1 ms divides by zero). -/
theorem short_timeout_ub : ∃ c, setTimeouts defaultTimeouts (some [500]) = (true, c) ∧
    schedule (env c) (dev 0 .ready [] []) .register false = .ub := ⟨_, rfl, by decide⟩

/-- Disagreement with the code: an array of size zero is accepted and means that there
are no tries at all: a provisioned device that starts fails, reconnects, restarts and
starts again for ever, each time without any delay. -/
theorem no_timeout_false : ∃ c, setTimeouts defaultTimeouts (some []) = (true, c) ∧
    ∃ s, run (dev 0 .ready [(.start, 0)] []) [(env c, .fire .start false false)] = .ok s ∧
      s.tms = [(.reconnect, 0)] ∧ s.cps = .failed ∧
      run (dev 0 .ready [(.start, 0)] []) ([.fire .start false false, .fire .reconnect false false,
        .fire .notify false false, .fire .restart false false].map fun e => (env c, e)) =
        .ok { dev 0 .failed [(.start, 0)] [] with err := .connect } ∧
      run { dev 0 .failed [(.start, 0)] [] with err := .connect } ([.fire .start false false,
        .fire .reconnect false false, .fire .notify false false, .fire .restart false false].map fun e => (env c, e)) =
        .ok { dev 0 .failed [(.start, 0)] [] with err := .connect } :=
  ⟨_, rfl, _, rfl, by decide, by decide, by decide, by decide⟩

/-! ## C74 and C78: all histories -/

theorem run_holds {u : Prop} {lim : Nat} {big : Prop} : ∀ (es : List (Env × Ev)) {s : Ctx}, Good lim big s →
    (∀ e ∈ es, e.1.lim = lim ∧ (¬ (e.1.fine ∧ e.2.Ok ∧ ¬ big) → u) ∧ (¬ big → e.2.small)) →
    Holds u (run s es) fun s' => Good lim big s' := by
  intro es
  induction es with
  | nil => intro s h _; exact h
  | cons e es ih =>
    intro s h he
    obtain ⟨h1, h2, h3⟩ := he e (by simp)
    subst h1
    exact (step_holds h2 h3 h).bind fun s' hs => ih hs fun e' he' => he e' (by simp [he'])

theorem good_init (lim : Nat) (big : Prop) : Good lim big {} :=
  ⟨stOk_zero _, ⟨EpAddr.inv_init lim, by simp, by simp⟩, by simp, by simp⟩

/-- **C74.** Whatever happens, in whatever order, and whatever the cloud answers: a
device that is logged in is registered, and one that is registered has a refresh token
and a user identifier.  (Histories that reach undefined behaviour are excluded; see
`no_undefined_partial`.) -/
theorem status_holds (lim : Nat) (es : List (Env × Ev)) (hl : ∀ e ∈ es, e.1.lim = lim) {s : Ctx}
    (h : run {} es = .ok s) :
    (has s.status LOGGED_IN = true → has s.status REGISTERED = true) ∧
    (has s.status REGISTERED = true → s.refresh ≠ [] ∧ s.uid ≠ []) := by
  have := run_holds (u := True) (big := True) es (good_init lim True)
    (fun e he => ⟨hl e he, fun _ => trivial, fun h => absurd trivial h⟩)
  rw [h] at this
  exact this.1

/-- **C78.** Whatever happens: every request of the cloud client, hence every token,
goes to a server that is in the list of servers when the request is sent. -/
theorem requests_to_servers (lim : Nat) (es : List (Env × Ev)) (hl : ∀ e ∈ es, e.1.lim = lim) {s : Ctx}
    (h : run {} es = .ok s) : ∀ q ∈ s.sent, q.2.1 ∈ q.2.2 := by
  have := run_holds (u := True) (big := True) es (good_init lim True)
    (fun e he => ⟨hl e he, fun _ => trivial, fun h => absurd trivial h⟩)
  rw [h] at this
  exact this.2.sent

/-- **C74 (partial).** The client does nothing undefined, whatever happens in whatever
order, if timeouts are at least a second, every response has a payload with a lifetime
of the token whose milliseconds fit into 64 bits, the identifiers of a configuration
are ASCII texts for at most 254 further servers, and no deregistration waits for a
refreshed token.  Missing: each of these, see `short_timeout_ub`, `no_payload_ub`,
`lifetime_ub`, `many_servers_ub` and `deregister_ub`. -/
theorem no_undefined_partial (lim : Nat) (es : List (Env × Ev))
    (he : ∀ e ∈ es, e.1.lim = lim ∧ e.1.fine ∧ e.2.Ok ∧ e.2.small) : ∃ s, run {} es = .ok s := by
  have := run_holds (u := False) (big := False) es (good_init lim False)
    (fun e h => ⟨(he e h).1, fun hn => hn ⟨(he e h).2.1, (he e h).2.2.1, id⟩, fun _ => (he e h).2.2.2⟩)
  cases hr : run {} es with
  | ok s => exact ⟨s, rfl⟩
  | ub => rw [hr] at this; exact this.elim

/-- A configuration. -/
def conf : Conf := { access := [97], provider := [112], server := [115], sid := List.replicate 16 1 }

/-- A response to registering. -/
def tokens (e : Int) : Resp :=
  ⟨3, some [(b "accesstoken", .str [1]), (b "refreshtoken", .str [2]), (b "uid", .str [3]), (b "expiresin", .int e)]⟩

/-- Provisioned, started, registered, logged in. -/
def life : List (Env × Ev) :=
  [.start, .provision conf, .fire .restart false false, .fire .start false false, .fire .register false false,
    .done .mRegister (tokens 100), .fire .notify false false, .fire .login false false,
    .done .mLogin (tokens 100)].map fun e => (env defaultTimeouts, e)

example : ∃ s, run {} life = .ok s ∧ has s.status LOGGED_IN = true ∧ s.cps = .registered ∧
    s.sent = [(.mRegister, [115], [[115]]), (.mLogin, [115], [[115]])] :=
  ⟨_, rfl, by decide, by decide, by decide⟩

example : ∀ e ∈ life, e.1.lim = 100 ∧ e.1.fine ∧ e.2.Ok ∧ e.2.small := by
  have hf : (env defaultTimeouts).fine := by intro t ht; right; revert t; decide
  have hr : (tokens 100).payload ≠ none ∧ (tokens 100).shortLived := by
    refine ⟨by simp [tokens], ?_⟩
    intro p e hp he
    simp only [tokens, Option.some.injEq] at hp
    subst hp
    have : intOf [(b "accesstoken", .str [1]), (b "refreshtoken", .str [2]), (b "uid", .str [3]), (b "expiresin", .int 100)]
      "expiresin" = some 100 := by decide
    rw [this] at he; cases he; decide
  intro e he
  simp only [life, List.map_cons, List.map_nil, List.mem_cons, List.not_mem_nil, or_false] at he
  rcases he with rfl | rfl | rfl | rfl | rfl | rfl | rfl | rfl | rfl <;>
    refine ⟨rfl, hf, ?_, ?_⟩ <;> simp only [Ev.Ok, Ev.small] <;> first | trivial | exact hr | (intro e; exact absurd e (by decide)) | (intro r hr; simp [conf] at hr) | skip

/-- Disagreement with the code: a cloud that answers registering with success but
without payload makes an assertion fail (without assertions a NULL pointer is
followed). -/
theorem no_payload_ub : step (env defaultTimeouts) (dev 0 .registering [] [.mRegister])
    (.done .mRegister ⟨3, none⟩) = .ub := by decide

/-- Disagreement with the code: the milliseconds of the lifetime of a token are
calculated in 64 bits with sign; the cloud may answer a login with one that overflows. -/
theorem lifetime_ub : step (env defaultTimeouts) (dev 1 .registered [] [.mLogin])
    (.done .mLogin (tokens 9223372036854776)) = .ub := by decide

/-- Servers to try things on. -/
def many (n : Nat) : List EpAddr.Item := (List.range n).map fun k => ⟨k, List.replicate (k + 1) 97, .uuid []⟩

/-- Disagreement with the code: more than 255 servers can be in the list, then starting
the manager fails an assertion (without assertions the number of servers left is
wrong). -/
theorem many_servers_ub : step (env defaultTimeouts)
    { servers := { items := many 256, sel := some 0, next := 256, calls := 1 } } .start = .ub := by decide +kernel

/-- Disagreement with the code: a device that was never provisioned and whose manager
is started says it is ready to register, after the network came up. -/
theorem unprovisioned_false : ∃ s,
    run {} ([.start, .netUp, .fire .start false false].map fun e => (env defaultTimeouts, e)) = .ok s ∧
      s.cps = .ready ∧ s.servers.items = [] ∧ s.access = [] ∧ s.tms.map (·.1) = [.register] :=
  ⟨_, rfl, by decide, by decide, by decide, by decide⟩

/-! ## C75 -/

/-- **C75.** The refresh of a token that lives `ms` milliseconds is never after its end
and not in the first half of its life; tokens that live more than 20 seconds are
refreshed at least 10 seconds, more than four minutes 2 minutes, and more than an hour
10 minutes before. -/
theorem refresh_margin (ms : Nat) (h : 0 < ms) : ∃ d, refreshDelay ms = .ok d ∧ d ≤ ms ∧ ms ≤ 2 * d ∧
    (20000 < ms → d + 10000 ≤ ms) ∧ (240000 < ms → d + 120000 ≤ ms) ∧ (3600000 < ms → d + 600000 ≤ ms) := by
  unfold refreshDelay
  rw [if_neg (by omega)]
  refine ⟨_, rfl, ?_, ?_, ?_, ?_, ?_⟩ <;> (repeat' split) <;> omega

example : refreshDelay 3600001 = .ok 3000001 ∧ refreshDelay 21000 = .ok 11000 := by decide

theorem loginError_ok {c : Nat} (h : c < 5) : loginError c = .ok := by
  have h1 : isConn c = false := by
    simp only [isConn, isTimeout, isConnErr, Bool.or_eq_false_iff, beq_eq_false_iff_ne]; omega
  unfold loginError
  rw [if_neg (by simp [h1]), if_neg (by omega), if_neg (by omega)]

theorem registerError_ok {c : Nat} (h : c < 5) : registerError c = .ok := by
  have h1 : isConn c = false := by
    simp only [isConn, isTimeout, isConnErr, Bool.or_eq_false_iff, beq_eq_false_iff_ne]; omega
  unfold registerError
  rw [if_neg (by simp [h1]), if_neg (by omega)]

theorem on_has : ∀ st : UInt8, has (st ||| LOGGED_IN) LOGGED_IN = true := forall_u8 (by decide +kernel)

/-- **C75.** After a login that succeeded the device is logged in, a ping follows 20
seconds later, the counter of retries starts anew and, if the token has a lifetime of
`e` seconds, a refresh is due as `refresh_margin` says. -/
theorem login_keeps_alive {x : Env} {s : Ctx} {r : Resp} {p : Rep} {e : Int}
    (ho : .mLogin ∈ s.out) (hr : has s.status REGISTERED = true) (hd : s.cps ≠ .deregistering)
    (hc : r.code < 5) (hp : r.payload = some p)
    (he : intOf p "expiresin" = some e) (hb : e * 1000 < 9223372036854775808) :
    ∃ s', step x s (.done .mLogin r) = .ok s' ∧ has s'.status LOGGED_IN = true ∧
      has s'.status REGISTERED = true ∧ s'.cps = .registered ∧ s'.err = .ok ∧ s'.count = 0 ∧
      (.ping, 20000) ∈ s'.tms ∧ (.notify, 0) ∈ s'.tms ∧
      (e > 0 → ∃ d, refreshDelay (e * 1000).toNat = .ok d ∧ (.refresh, d) ∈ s'.tms) := by
  obtain ⟨g1, g2, g3, g4, g5⟩ := setExpires_st e (cancel [.login] { s with out := s.out.erase .mLogin })
  have hreg : has (setExpires e (cancel [.login] { s with out := s.out.erase .mLogin })).status REGISTERED = true := by
    rw [g1.2]; exact hr
  have hlog : loginHandler (cancel [.login] { s with out := s.out.erase .mLogin }) r =
      (.ok, .registered, on LOGGED_IN (retryReset (setExpires e (cancel [.login] { s with out := s.out.erase .mLogin })))) := by
    unfold loginHandler
    have hd' : isDereg (cancel [.login] { s with out := s.out.erase .mLogin }) = false := by
      simp [isDereg, cancel, hd]
    have hr' : has (cancel [.login] { s with out := s.out.erase .mLogin }).status REGISTERED = true := hr
    simp only [loginError_ok hc, hd', hp, Option.bind_some, he, hr']
    simp
  generalize hz : setExpires e (cancel [.login] { s with out := s.out.erase .mLogin }) = z at *
  have hkz : ∀ k : Ctx, k.expires = e → ∃ s', (scheduleRefresh k).bind (fun s => .ok (reset .notify 0 s)) = .ok s' ∧
      s'.status = k.status ∧ s'.cps = k.cps ∧ s'.err = k.err ∧ s'.count = k.count ∧ (.notify, 0) ∈ s'.tms ∧
      (∀ d, (.ping, d) ∈ k.tms → (.ping, d) ∈ s'.tms) ∧
      (e > 0 → ∃ d, refreshDelay (e * 1000).toNat = .ok d ∧ (.refresh, d) ∈ s'.tms) := by
    intro k hk
    unfold scheduleRefresh
    rw [hk]
    by_cases h0 : e > 0
    · obtain ⟨d, hd, _⟩ := refresh_margin (e * 1000).toNat (by omega)
      rw [if_pos h0, if_neg (by omega), hd]
      refine ⟨_, rfl, rfl, rfl, rfl, rfl, by simp [reset], ?_, fun _ => ⟨d, rfl, by simp [reset]⟩⟩
      intro d' hd'; simp [reset, hd']
    · rw [if_neg h0]
      refine ⟨_, rfl, rfl, rfl, rfl, rfl, by simp [reset], ?_, fun h => absurd h h0⟩
      intro d' hd'; simp [reset, hd']
  obtain ⟨s', h1, h2, h3, h4, h5, h6, h7, h8⟩ := hkz (reset .ping 20000 { setCps .registered .ok (on LOGGED_IN (retryReset z)) with count := 0 }) g5
  refine ⟨s', ?_, ?_, ?_, h3, h4, h5, h7 _ (by simp [reset]), h6, h8⟩
  · rw [step, if_pos ho]
    show mLoginDone _ _ _ = _
    have hr' : has (cancel [.login] { s with out := s.out.erase .mLogin }).status REGISTERED = true := hr
    unfold mLoginDone
    simp only [hlog, hr']
    simp only [not_true_eq_false, if_false, keepalive, if_true]
    exact h1
  · rw [h2]; exact on_has _
  · rw [h2]
    show has (z.status ||| LOGGED_IN) REGISTERED = true
    rw [on_login]; exact hreg

example : ∃ s', step (env defaultTimeouts) (dev 1 .registered [] [.mLogin]) (.done .mLogin (tokens 100)) = .ok s' ∧
    s'.tms = [(.ping, 20000), (.refresh, 90000), (.notify, 0)] := ⟨_, rfl, by decide⟩

/-- `n` pings that are sent and time out. -/
def lost (x : Env) (s : Ctx) : Nat → Out Ctx
  | 0 => .ok s
  | n + 1 => (lost x s n).bind fun s =>
    (step x s (.fire .ping false false)).bind fun s => step x s (.done .ping ⟨22, none⟩)

/-- **C75.** A device that is logged in reconnects when as many pings in a row were lost
as there are timeouts of retries, and not before: until then another ping is pending. -/
theorem pings_lost {x : Env} {s : Ctx} {m : Nat} (hs : x.sends = true) (he : s.ep.isSome)
    (hm : ∀ k : UInt8, isOver x.timeouts k = decide (m ≤ k.toNat)) (h0 : 0 < m) (h6 : m < 256)
    (hl : has s.status LOGGED_IN = true) (hc : s.count = 0) (ho : s.out = []) {d : Nat} (ht : s.tms = [(.ping, d)]) :
    ∀ n, (n < m → ∃ s' d, lost x s n = .ok s' ∧ s'.tms = [(.ping, d)] ∧ s'.count.toNat = n) ∧
      (n = m → ∃ s', lost x s n = .ok s' ∧ s'.tms = [(.reconnect, 0)] ∧ s'.err = .connect) := by
  have key : ∀ n, n < m → ∃ s' d, lost x s n = .ok s' ∧ s'.tms = [(.ping, d)] ∧ s'.count.toNat = n ∧
      s'.status = s.status ∧ s'.ep = s.ep ∧ s'.out = [] := by
    intro n
    induction n with
    | zero => intro _; exact ⟨s, d, rfl, ht, by rw [hc]; rfl, rfl, rfl, ho⟩
    | succ n ih =>
      intro hn
      obtain ⟨s1, d1, e1, t1, c1, st1, ep1, o1⟩ := ih (by omega)
      have hc1 : (s1.count + 1).toNat = n + 1 := by
        rw [UInt8.toNat_add, c1]; show (n + 1) % 256 = n + 1; omega
      refine ⟨reset .ping (if s1.pingTimeout * 1000 ≥ 4000 + 1000 then s1.pingTimeout * 1000 - 4000 else 4000)
        { s1 with tms := [], out := [], count := s1.count + 1, sent := s1.sent ++ [(.ping, s1.ep.getD [], s1.servers.items.map (·.uri))] },
        (if s1.pingTimeout * 1000 ≥ 4000 + 1000 then s1.pingTimeout * 1000 - 4000 else 4000), ?_, by simp [reset], hc1, st1, ep1, rfl⟩
      rw [lost, e1]
      have ho' : isOver x.timeouts (s1.count + 1) = false := by rw [hm, hc1]; simp; omega
      simp only [Out.bind, step, t1, List.map_cons, List.map_nil, List.mem_singleton, if_true, fire, pingAsync, st1, hl,
        hs, ep1, he, o1]
      simp [done, pingDone, hl, keepalive, isTimeout, ho']
  intro n
  refine ⟨fun hn => ?_, fun hn => ?_⟩
  · obtain ⟨s', d, h1, h2, h3, _⟩ := key n hn
    exact ⟨s', d, h1, h2, h3⟩
  · obtain ⟨k, rfl⟩ : ∃ k, n = k + 1 := ⟨n - 1, by omega⟩
    obtain ⟨s1, d1, e1, t1, c1, st1, ep1, o1⟩ := key k (by omega)
    have hc1 : (s1.count + 1).toNat = k + 1 := by
      rw [UInt8.toNat_add, c1]; show (k + 1) % 256 = k + 1; omega
    have ho' : isOver x.timeouts (s1.count + 1) = true := by rw [hm, hc1]; simp; omega
    refine ⟨reset .reconnect 0 (setErr .connect { s1 with tms := [], out := [], count := s1.count + 1, sent := s1.sent ++ [(.ping, s1.ep.getD [], s1.servers.items.map (·.uri))] }),
      ?_, by simp [reset, setErr], rfl⟩
    rw [lost, e1]
    simp only [Out.bind, step, t1, List.map_cons, List.map_nil, List.mem_singleton, if_true, fire, pingAsync, st1, hl,
      hs, ep1, he, o1]
    simp [done, pingDone, hl, keepalive, isTimeout, ho']

example : (∀ k : UInt8, isOver [3000, 1000, 0, 0, 0, 0] k = decide (2 ≤ k.toNat)) ∧
    ∃ s', lost (env [3000, 1000, 0, 0, 0, 0]) { dev 3 .registered [(.ping, 20000)] [] with ep := some [115] } 2 = .ok s' ∧
      s'.tms = [(.reconnect, 0)] :=
  ⟨fun k => over_length (t := [3000, 1000]) (by decide) k, _, rfl, by decide⟩

/-- Disagreement with the code: a ping that cannot be sent is not tried again and does
not lead to reconnecting: the device stays logged in with nothing pending at all. -/
theorem ping_unsent_false : ∃ s', step { env defaultTimeouts with sends := false }
    { dev 3 .registered [(.ping, 20000)] [] with ep := some [115] } (.fire .ping false false) = .ok s' ∧
      s'.tms = [] ∧ s'.out = [] ∧ has s'.status LOGGED_IN = true ∧ s'.err = .ok :=
  ⟨_, rfl, by decide, by decide, by decide, by decide⟩

/-! ## C76 -/

/-- The device is registered with the tokens of the response. -/
def Registered (s : Ctx) (a f w : Bytes) (e : Int) : Prop :=
  has s.status REGISTERED = true ∧ s.cps = .registered ∧ s.err = .ok ∧ s.access = a ∧ s.refresh = f ∧
  s.uid = w ∧ s.expires = e ∧ (.notify, 0) ∈ s.tms ∧ ∃ d, (.login, d) ∈ s.tms

/-- **C76.** A registration that succeeds leaves the device registered with the tokens
of the response and a login pending; if the response redirects to a server other than
the selected one, that server is selected and the old one is gone, see `Redirected`, and
a new connection will be made, unless the server can neither be found nor added: then,
and without redirection, servers and connection stay. -/
theorem redirect_followed {big : Prop} {x : Env} {s : Ctx} {r : Resp} {p : Rep} {a f w : Bytes} {e : Int} {t : Nat}
    (hg : Good x.lim big s) (ho : .mRegister ∈ s.out) (hs : s.status = 0)
    (h0 : x.timeouts[0]? = some t) (ht : 1000 ≤ t) (hcu : x.custom = none)
    (hc : r.code < 5) (hp : r.payload = some p) (ha : strOf p "accesstoken" = some a)
    (hf : strOf p "refreshtoken" = some f) (hw : strOf p "uid" = some w) (he : intOf p "expiresin" = some e) :
    ∃ s', step x s (.done .mRegister r) = .ok s' ∧ Registered s' a f w e ∧
      ((∃ u, strOf p "redirecturi" = some u ∧
          ((EpAddr.servers s.servers).all[(EpAddr.servers s.servers).cur]?).map (·.1) ≠ some u ∧
          (u ∈ (EpAddr.servers s.servers).all.map (·.1) ∨ x.mem 0 = true ∧ EpAddr.Fits x.lim u) ∧
          Redirected (EpAddr.servers s.servers) u (EpAddr.servers s'.servers) ∧ s'.ep = none ∧ s'.conn = false) ∨
        ((∀ u, strOf p "redirecturi" = some u →
          ((EpAddr.servers s.servers).all[(EpAddr.servers s.servers).cur]?).map (·.1) = some u ∨
          ¬ (u ∈ (EpAddr.servers s.servers).all.map (·.1) ∨ x.mem 0 = true ∧ EpAddr.Fits x.lim u)) ∧
          s'.servers = s.servers ∧ s'.ep = s.ep ∧ s'.conn = s.conn)) := by
  obtain ⟨s1, hs1⟩ : ∃ s1, s1 = cancel [.register] { s with out := s.out.erase .mRegister } := ⟨_, rfl⟩
  obtain ⟨z, hz⟩ : ∃ z, z = setExpires e { s1 with access := a, refresh := f, uid := w } := ⟨_, rfl⟩
  obtain ⟨g1, g2, g3, g4, g5⟩ := setExpires_st e { s1 with access := a, refresh := f, uid := w }
  have hza : z.access = a := by
    rw [hz]; unfold setExpires; dsimp only; split <;> rfl
  have hzc : z.conn = s.conn := by
    rw [hz, hs1]; unfold setExpires; dsimp only; split <;> rfl
  rw [← hz] at g1 g2 g3 g4 g5
  have hgz : Good x.lim big z := by
    refine ⟨stOk_sub g1 ?_, by rw [g4.1, g4.2.1, g4.2.2, hs1]; exact hg.2⟩
    show StOk s1.status _
    rw [hs1]; show StOk s.status _; rw [hs]; exact stOk_zero _
  have hsv : z.servers = s.servers := by rw [g4.1, hs1]; rfl
  have hep : z.ep = s.ep := by rw [g4.2.1, hs1]; rfl
  -- the redirection
  have hred : ∃ y, redirectResponse x z p = .ok y ∧ y.status = z.status ∧ y.access = a ∧ y.refresh = f ∧ y.uid = w ∧
      y.expires = e ∧
      ((∃ u, strOf p "redirecturi" = some u ∧
          ((EpAddr.servers s.servers).all[(EpAddr.servers s.servers).cur]?).map (·.1) ≠ some u ∧
          (u ∈ (EpAddr.servers s.servers).all.map (·.1) ∨ x.mem 0 = true ∧ EpAddr.Fits x.lim u) ∧
          Redirected (EpAddr.servers s.servers) u (EpAddr.servers y.servers) ∧ y.ep = none ∧ y.conn = false) ∨
        ((∀ u, strOf p "redirecturi" = some u →
          ((EpAddr.servers s.servers).all[(EpAddr.servers s.servers).cur]?).map (·.1) = some u ∨
          ¬ (u ∈ (EpAddr.servers s.servers).all.map (·.1) ∨ x.mem 0 = true ∧ EpAddr.Fits x.lim u)) ∧
          y.servers = s.servers ∧ y.ep = s.ep ∧ y.conn = s.conn)) := by
    unfold redirectResponse
    cases hu : strOf p "redirecturi" with
    | none => exact ⟨z, rfl, rfl, hza, g2, g3, g5, Or.inr ⟨fun u hu' => by simp at hu', hsv, hep, hzc⟩⟩
    | some u =>
      simp only
      have hsel : Holds False (EpAddr.isSelected z.servers u) fun q =>
          q = decide (((EpAddr.servers s.servers).all[(EpAddr.servers s.servers).cur]?).map (·.1) = some u) := by
        unfold EpAddr.isSelected
        refine (selected_holds hgz.2.inv).bind fun i hi => ?_
        cases i with
        | none =>
          have := hi.1 rfl
          show false = _
          rw [hsv] at this
          simp [EpAddr.servers, this]
        | some i =>
          have := (hi.2 i rfl).1
          show decide _ = _
          rw [hsv] at this
          apply decide_eq_decide.2
          have h' : (EpAddr.servers s.servers).all[(EpAddr.servers s.servers).cur]? = some (i.uri, i.tag) := by
            simp only [EpAddr.servers] at this ⊢
            rw [List.getElem?_map, this]; rfl
          rw [h']; simp
      cases hq : EpAddr.isSelected z.servers u with
      | ub => rw [hq] at hsel; exact hsel.elim
      | ok q =>
        rw [hq] at hsel
        have hsel : q = _ := hsel
        by_cases hqq : ((EpAddr.servers s.servers).all[(EpAddr.servers s.servers).cur]?).map (·.1) = some u
        · rw [hsel]
          simp only [Out.bind, hqq, decide_true, if_true]
          exact ⟨z, rfl, rfl, hza, g2, g3, g5, Or.inr ⟨fun u' hu' => by cases hu'; exact Or.inl rfl, hsv, hep, hzc⟩⟩
        · rw [hsel]
          simp only [Out.bind, hqq, decide_false, Bool.false_eq_true, if_false]
          have hr := redirectServers_holds (u := False) (uri := u) hgz.2.toSrvOk (by
            rw [hsv]; intro q hq e; rw [hq] at hqq; simp at hqq; exact hqq e)
          cases hrs : redirectServers x z.servers u with
          | ub => rw [hrs] at hr; exact hr.elim
          | ok o =>
            rw [hrs] at hr
            cases o with
            | none =>
              have hr : ¬ _ := hr
              rw [hsv] at hr
              exact ⟨z, rfl, rfl, hza, g2, g3, g5, Or.inr ⟨fun u' hu' => by cases hu'; exact Or.inr hr, hsv, hep, hzc⟩⟩
            | some a' =>
              obtain ⟨hr1, _, hr2⟩ := hr
              rw [hsv] at hr1 hr2
              exact ⟨resetEndpoint (withServers z a'), rfl, rfl, hza, g2, g3, g5,
                Or.inl ⟨u, rfl, hqq, hr1, hr2, rfl, rfl⟩⟩
  obtain ⟨y, hy, y1, y2, y3, y4, y5, y6⟩ := hred
  have hh : registerHandler x s1 r = .ok (.ok, .registered, on REGISTERED (retryReset y)) := by
    unfold registerHandler
    rw [registerError_ok hc, if_neg (by simp), if_neg (by rw [hs1]; simp [cancel, hs])]
    simp only [hp]
    have : registerResponse s1 p = some z := by
      unfold registerResponse; rw [ha, hf, hw, he, hz]
    simp only [this, hy, Out.bind]
  obtain ⟨q, hq⟩ : ∃ q, q = reset .login (t / 2 + x.rnd % (t / 2))
      { on REGISTERED (retryReset y) with count := 0, timeout := t / 1000 } := ⟨_, rfl⟩
  have hqs : schedule x (on REGISTERED (retryReset y)) .login false = .ok (true, q) := by
    rw [hq]; exact schedule_first h0 ht hcu (by decide)
  refine ⟨setCps .registered .ok (reset .notify 0 q), ?_, ?_, ?_⟩
  · rw [step, if_pos ho]
    show mRegisterDone _ _ _ = _
    unfold mRegisterDone
    rw [← hs1, hh]
    simp only [Out.bind, if_true]
    rw [hqs]
    simp only [if_true]
  · have hl : (Tm.login, t / 2 + x.rnd % (t / 2)) ∈ q.tms := by rw [hq]; simp [reset]
    refine ⟨?_, rfl, rfl, ?_, ?_, ?_, ?_, by simp [reset, setCps], ⟨t / 2 + x.rnd % (t / 2), ?_⟩⟩
    · show has q.status REGISTERED = true
      rw [hq]; exact on_reg _
    · show q.access = a
      rw [hq]; exact y2
    · show q.refresh = f
      rw [hq]; exact y3
    · show q.uid = w
      rw [hq]; exact y4
    · show q.expires = e
      rw [hq]; exact y5
    · simp only [reset, setCps]
      exact List.mem_append_left _ (List.mem_filter.2 ⟨hl, by simp⟩)
  · rw [hq]; exact y6

/-- The same response with a redirection. -/
def moved (u : Bytes) : Resp := ⟨3, (tokens 100).payload.map fun p => p ++ [(b "redirecturi", .str u)]⟩

example : ∃ s', step (env defaultTimeouts) { dev 0 .registering [] [.mRegister] with ep := some [115] }
    (.done .mRegister (moved [116])) = .ok s' ∧ has s'.status REGISTERED = true ∧ s'.ep = none ∧
      EpAddr.servers s'.servers = ⟨[([116], .uuid (List.replicate 16 1))], 0⟩ :=
  ⟨_, rfl, by decide, by decide, by decide⟩

/-! ## C77 -/

/-- **C77.** When the cloud has answered the deregistration with success, or the
connection is lost meanwhile, the device is neither registered nor logged in and may
be provisioned anew. -/
theorem deregistered {x : Env} {s : Ctx} {r : Resp} (ho : .dereg ∈ s.out)
    (hc : r.code < 5 ∨ isConnErr r.code = true) :
    ∃ s', step x s (.done .dereg r) = .ok s' ∧ s'.status = 0 ∧ s'.cps = .uninitialized := by
  rw [step, if_pos ho]
  refine ⟨_, rfl, ?_, rfl⟩
  simp only [deregDone, if_pos hc, off]
  decide

example : ∃ s', step (env defaultTimeouts) (dev 3 .deregistering [] [.dereg]) (.done .dereg ⟨2, none⟩) = .ok s' ∧
    s'.status = 0 := ⟨_, rfl, by decide⟩

/-- Disagreement with the code: a deregistration that fails because the request cannot
be sent leaves the device deregistering: nothing is pending, and every later call is
refused because a deregistration is said to be running. -/
theorem deregister_stuck_false : ∃ s',
    doDeregister { env defaultTimeouts with sends := false } (dev 3 .registered [] []) true true true = .ok (-1, s') ∧
      s'.out = [] ∧ s'.tms = [] ∧ doDeregister (env defaultTimeouts) s' true true true = .ok (1, s') :=
  ⟨_, rfl, by decide, by decide, by decide⟩

/-- Disagreement with the code: if the token had to be refreshed to deregister and the
login that follows cannot be sent, the parameters of the deregistration are read after
they were freed. -/
theorem deregister_ub : step { env defaultTimeouts with sends := false }
    (dev 1 .deregistering [(.refreshed, 0)] []) (.fire .refreshed false false) = .ub := by decide

end Verif.Cloud
