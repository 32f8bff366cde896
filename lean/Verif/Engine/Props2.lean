import Verif.Engine.Props
import Verif.Engine.Sess

/-!
Properties of histories of the engine (C136) and of signal messages over TCP (C137).
-/

namespace Verif.Engine

/-! ### C136: whole histories -/

/-- No message over TCP has a block option. -/
def Usual : Ev → Prop
  | .msg m _ => Ordinary m
  | _ => True

/-- The parser refused no message. -/
def WellFormed : Ev → Prop
  | .msg _ e => e.err = none
  | _ => True

theorem step_good {s : St} (hi : Inv s) {ev : Ev} (hu : Usual ev) :
    ∃ s' outs, step s ev = .ok (s', outs) ∧ Inv s' ∧ s.cnt ≤ s'.cnt ∧ (WellFormed ev → Fresh s.cnt s'.cnt outs) := by
  have nil : ∀ a b, Fresh a b [] := fun a b => fresh_none (fun o h => by cases h)
  cases ev with
  | msg m e =>
    obtain ⟨r, h1, h2⟩ := inbound_good (e := e) hi hu
    refine ⟨r.st, r.outs, ?_, h2.inv, h2.cnt, h2.fresh⟩
    show (match inbound s m e with | .ok r => (Out.ok (r.st, r.outs) : Out (St × List Sent)) | .ub => .ub) = _
    rw [h1]
  | app ep con code token e =>
    have h := app_good hi ep con code token e
    exact ⟨_, _, rfl, h.1, h.2.1, fun _ => h.2.2.2⟩
  | accept p => exact ⟨_, _, rfl, hi, Nat.le_refl _, fun _ => nil _ _⟩
  | connect p => exact ⟨_, _, rfl, hi, Nat.le_refl _, fun _ => nil _ _⟩
  | ended p => exact ⟨_, _, rfl, hi, Nat.le_refl _, fun _ => nil _ _⟩
  | expire i =>
    refine ⟨_, _, rfl, ?_, Nat.le_refl _, fun _ => nil _ _⟩
    intro t ht
    exact hi t (List.mem_filter.1 ht).1

theorem run_good : ∀ (evs : List Ev) {s : St}, Inv s → (∀ ev ∈ evs, Usual ev) →
    ∃ s' outs, run s evs = .ok (s', outs) ∧ Inv s' ∧ s.cnt ≤ s'.cnt ∧ ((∀ ev ∈ evs, WellFormed ev) → Fresh s.cnt s'.cnt outs)
  | [], s, hi, _ => ⟨s, [], rfl, hi, Nat.le_refl _, fun _ => fresh_none (fun o h => by cases h)⟩
  | ev :: evs, s, hi, hu => by
    obtain ⟨s1, o1, h1, h2, h3, h4⟩ := step_good hi (hu ev (by simp))
    obtain ⟨s2, o2, k1, k2, k3, k4⟩ := run_good evs h2 (fun x hx => hu x (by simp [hx]))
    refine ⟨s2, o1 ++ o2, ?_, k2, Nat.le_trans h3 k3, fun hw => ?_⟩
    · rw [run, h1]
      dsimp only
      rw [k1]
    · exact (h4 (hw ev (by simp))).append (k4 fun x hx => hw x (by simp [hx])) h3 k3

/-- C136: whatever messages arrive, in whatever order, with whatever decisions of the other
modules, and whatever the application sends in between, no freed transaction is used and no
message makes the program stop; messages over TCP with a block option are excluded (see
`tcp_block_ub`). -/
theorem never_fails (seed : Nat) (evs : List Ev) (hu : ∀ ev ∈ evs, Usual ev) : ∃ s outs, run (start seed) evs = .ok (s, outs) := by
  obtain ⟨s, o, h, _⟩ := run_good evs (s := start seed) (fun t h => by cases h) hu
  exact ⟨s, o, h⟩

/-- C136: the message ids of the confirmable and non-confirmable messages sent in a history of
well-formed messages are the values of one counter, in increasing order: they are all
different as long as no more than 65536 ids were given out. -/
theorem distinct_ids (seed : Nat) (evs : List Ev) (hu : ∀ ev ∈ evs, Usual ev) (hw : ∀ ev ∈ evs, WellFormed ev) (s : St)
    (outs : List Sent) (h : run (start seed) evs = .ok (s, outs)) (hc : s.cnt ≤ seed + 65536) :
    ((outs.filter originated).map fun o => o.pkt.mid).Nodup := by
  obtain ⟨s', o', k1, _, _, k2⟩ := run_good evs (s := start seed) (fun t h => by cases h) hu
  rw [h] at k1
  injection k1 with k1
  injection k1 with e1 e2
  subst e1; subst e2
  obtain ⟨l, p1, p2, p3⟩ := k2 hw
  rw [p3]
  rw [List.Nodup, List.pairwise_map]
  have : ∀ (l : List Nat), l.Pairwise (· < ·) → (∀ x ∈ l, seed < x ∧ x ≤ s.cnt) → l.Pairwise fun a b => wire a ≠ wire b := by
    intro l
    induction l with
    | nil => intro _ _; exact List.Pairwise.nil
    | cons a r ih =>
      intro hp hb
      rw [List.pairwise_cons] at hp ⊢
      refine ⟨fun b hbm => ?_, ih hp.2 fun x hx => hb x (by simp [hx])⟩
      have h1 := hp.1 b hbm
      have h2 := hb a (by simp)
      have h3 := hb b (by simp [hbm])
      unfold wire
      omega
  exact this l p1 p2

/-- A history: a non-confirmable request, one for `oic/res`, a request of the application. -/
example : ∃ s outs, run (start 65534) [.msg { exGet with typ := 1 } exEnv, .msg { exGet with typ := 1, mid := 8, res := true } exEnv,
      .app exEp true 1 [3] exEnv] = .ok (s, outs) ∧ s.cnt ≤ 65534 + 65536 ∧ (outs.filter originated).map (fun o => o.pkt.mid) = [65535, 0, 1] :=
  ⟨_, _, rfl, by decide, rfl⟩

/-- C136: everything sent because of a message goes to its sender. -/
theorem to_asker {s : St} {m : Msg} {e : Env} (hi : Inv s) (ho : Ordinary m) :
    ∃ r, inbound s m e = .ok r ∧ ∀ o ∈ r.outs, o.ep = m.ep := by
  obtain ⟨r, h1, h2⟩ := inbound_good (e := e) hi ho
  exact ⟨r, h1, h2.eps⟩

example : Inv (start 5) ∧ Ordinary exGet := ⟨(fun t h => by cases h), fun h => by cases h⟩

/-- C136: a message over TCP that the parser refuses ends the connection; nothing is sent. -/
theorem tcp_invalid {s : St} {m : Msg} {e : Env} {c : Nat} (ht : m.ep.tcp = true) (he : e.err = some c) :
    ∃ st, inbound s m e = .ok ⟨st, [], false, true⟩ ∧ state st m.ep.peer = none ∧ ∀ p, p ≠ m.ep.peer → state st p = state s p := by
  have hp : (parsed m).ep = m.ep := parsed_ep m
  refine ⟨closeSession s m.ep, ?_, state_closed s m.ep ht, fun p h => state_close s m.ep fun hh => h hh.2⟩
  unfold inbound
  rw [he]
  dsimp only
  unfold invalid
  rw [hp, if_pos ht]

/-- C136: a message over TCP with a block option is never handled. -/
theorem tcp_block_not_served {s : St} {m : Msg} {e : Env} {r : Res} (ht : m.ep.tcp = true) (hb : m.b1.isSome = true ∨ m.b2.isSome = true)
    (h : inbound s m e = .ok r) : r.ran = false := by
  have hm : ∀ {s : St} {r : Res}, main s (parsed m) e = .ok r → r.ran = false := by
    intro s r h
    unfold main at h
    rw [if_pos (by rw [parsed_ep, parsed_b1, parsed_b2]; simp [ht]; exact hb)] at h
    unfold stale at h
    split at h
    · cases h
    · split at h
      · injection h with h; rw [← h]
      · cases h
  unfold inbound at h
  split at h
  · injection h with h
    rw [← h]
    unfold invalid
    split <;> rfl
  · dsimp only at h
    split at h
    · split at h
      · rename_i r0 hs
        injection h with h
        subst h
        unfold signal at hs
        repeat' (split at hs)
        all_goals first | cases hs; done | (injection hs with hs; rw [← hs])
      · exact hm h
    · exact hm h

/-- A GET over TCP with a block2 option. -/
def exBlock : Msg := { exGet with ep := exTcp, b2 := some 0 }

/-- C136: the first message a device receives, a request over TCP with a block option, is a
NULL pointer access: the static context is used before it is set (engine.c:1122, 1160-1164,
1203). -/
theorem tcp_block_first_ub : inbound (start 5) exBlock exEnv = .ub := rfl

/-- C136: the same after another message was served: the static context still points to the
transaction of that message, which was freed (engine.c:1218, transactions.c:203-214). -/
theorem tcp_block_ub : run (start 5) [.msg exGet exEnv, .msg exBlock exEnv] = .ub := rfl

/-- C136: false that what is sent because of a message goes to its sender: if the transaction
of the message before is still there (a confirmable answer to `oic/res`), the error goes to
the other peer, over UDP in the framing of TCP. -/
theorem tcp_block_elsewhere_false : ∃ s outs,
    run (start 5) [.msg { exGet with ep := { exEp with peer := 2 }, typ := 1, res := true } exEnv, .msg exBlock exEnv] = .ok (s, outs) ∧
    outs.map (fun o => (o.ep.peer, o.ep.tcp, o.pkt.tcp, o.pkt.code)) = [(2, false, false, 69), (2, false, true, 160)] := ⟨_, _, rfl, rfl⟩

/-- C136: false that a message over TCP with a block option is answered: after a message that
needed no transaction there is silence. -/
theorem tcp_block_silent_false : ∃ s outs,
    run (start 5) [.msg { exGet with code := 0, typ := 2 } exEnv, .msg exBlock exEnv] = .ok (s, outs) ∧ outs = [] := ⟨_, _, rfl, rfl⟩

/-! ### C137: signals -/

theorem inbound_signal {s : St} {m : Msg} {e : Env} {r : Res} (ht : m.ep.tcp = true) (he : e.err = none) (h1 : 225 ≤ m.code) (h2 : m.code ≤ 229)
    (h : signal s (parsed m) e = some r) : inbound s m e = .ok r := by
  unfold inbound
  rw [he]
  dsimp only
  have hs : settle s (parsed m) = s := by unfold settle; rw [parsed_ep, if_pos ht]
  rw [hs, if_pos (by rw [parsed_code]; unfold isSignal; simp [h1, h2]), h]

/-- C137: a ping over TCP is answered by exactly one pong, with the token and the custody
option of the ping; the state does not change. -/
theorem ping_pong {s : St} {m : Msg} {e : Env} (ht : m.ep.tcp = true) (he : e.err = none) (hc : m.code = 226) (ha : e.msgAlloc = true) :
    inbound s m e = .ok ⟨s, [⟨m.ep, ⟨true, 1, 227, 0, m.token, m.custody⟩⟩], false, false⟩ := by
  refine inbound_signal ht he (by omega) (by omega) ?_
  have hcu : (parsed m).custody = m.custody := by unfold parsed; split <;> rfl
  unfold signal sendPong
  rw [parsed_code, hc, parsed_ep, if_pos ha]
  dsimp only
  rw [parsed_token, hcu]
  rfl

/-- C137: a release ends the session with its sender and no other; nothing is sent. -/
theorem release {s : St} {m : Msg} {e : Env} (ht : m.ep.tcp = true) (he : e.err = none) (hc : m.code = 228) :
    ∃ st, inbound s m e = .ok ⟨st, [], false, true⟩ ∧ state st m.ep.peer = none ∧ ∀ p, p ≠ m.ep.peer → state st p = state s p := by
  refine ⟨closeSession s m.ep, inbound_signal ht he (by omega) (by omega) ?_, state_closed s m.ep ht, fun p h => state_close s m.ep fun hh => h hh.2⟩
  unfold signal
  rw [parsed_code, hc, parsed_ep]
  rfl

/-- C137: a CSM is answered by a CSM if the session was accepted and no CSM has come yet, and
by nothing otherwise; afterwards the session has had its CSM. -/
theorem csm_answer {s : St} {m : Msg} {e : Env} {c : Csm} (ht : m.ep.tcp = true) (he : e.err = none) (hc : m.code = 225)
    (hs : state s m.ep.peer = some c) (ha : e.msgAlloc = true) :
    ∃ st, inbound s m e = .ok ⟨st, if c = .none then [⟨m.ep, ⟨true, 1, 225, 0, e.rnd, false⟩⟩] else [], false, false⟩ ∧
      state st m.ep.peer = some .done ∧ ∀ p, p ≠ m.ep.peer → state st p = state s p := by
  have hcs : csm s m.ep = c := by rw [csm_state, if_pos ht, hs]; rfl
  have set : ∀ x : St, x = setCsm s m.ep .done → state x m.ep.peer = some .done ∧ ∀ p, p ≠ m.ep.peer → state x p = state s p := by
    intro x hx
    subst hx
    refine ⟨?_, fun p hp => ?_⟩
    · rw [state_set, if_pos ⟨ht, rfl⟩, hs]; rfl
    · rw [state_set, if_neg (fun hh => hp hh.2)]
  cases c with
  | done =>
    refine ⟨s, inbound_signal ht he (by omega) (by omega) ?_, hs, fun _ _ => rfl⟩
    unfold signal
    rw [parsed_code, hc, parsed_ep, hcs]
    rfl
  | none =>
    refine ⟨setCsm s m.ep .done, inbound_signal ht he (by omega) (by omega) ?_, set _ rfl⟩
    unfold signal sendCsm
    rw [parsed_code, hc, parsed_ep, hcs, if_pos ha]
    rfl
  | sent =>
    refine ⟨setCsm s m.ep .done, inbound_signal ht he (by omega) (by omega) ?_, set _ rfl⟩
    unfold signal
    rw [parsed_code, hc, parsed_ep, hcs]
    rfl

/-- C137: no signal is ever handled by a resource. -/
theorem signal_not_served {s : St} {m : Msg} {e : Env} {r : Res} (h1 : 225 ≤ m.code) (h2 : m.code ≤ 229)
    (h : inbound s m e = .ok r) : r.ran = false := by
  have hp : ∀ {s : St} {r : Res}, main s (parsed m) e = .ok r → r.ran = false := by
    intro s r h
    unfold main at h
    split at h
    · unfold stale at h
      split at h
      · cases h
      · split at h
        · injection h with h; rw [← h]
        · cases h
    · have hr : isRequest (parsed m).code = false := by rw [parsed_code]; unfold isRequest; simp; omega
      unfold receive at h
      rw [if_neg (by rw [hr]; simp)] at h
      have hw : (withCode s (parsed m) e).1.ran = false := by
        unfold withCode
        dsimp only
        repeat' split
        all_goals rfl
      dsimp only at h
      unfold result at h
      repeat' (split at h)
      all_goals first | cases h; done | (injection h with h; rw [← h]; exact hw)
  unfold inbound at h
  split at h
  · injection h with h
    rw [← h]
    unfold invalid
    split <;> rfl
  · dsimp only at h
    split at h
    · split at h
      · rename_i r0 hs
        injection h with h
        subst h
        unfold signal at hs
        repeat' (split at hs)
        all_goals first | cases hs; done | (injection hs with hs; rw [← hs])
      · exact hp h
    · exact hp h

/-- Events that end or begin the session with a peer. -/
def Renews (p : Nat) : Ev → Prop
  | .msg m e => m.ep.tcp = true ∧ m.ep.peer = p ∧ (e.err.isSome = true ∨ m.code = 228)
  | .accept q | .connect q | .ended q => q = p
  | _ => False

theorem step_done {s s' : St} {ev : Ev} {outs : List Sent} {p : Nat} (hd : state s p = some .done) (hr : ¬Renews p ev)
    (h : step s ev = .ok (s', outs)) : state s' p = some .done := by
  have hcons : ∀ (l : List (Nat × Csm)) (q : Nat) (c : Csm), q ≠ p → (((q, c) :: l.filter fun x => x.1 != q).find? fun x => x.1 == p) =
      l.find? fun x => x.1 == p := by
    intro l q c hq
    rw [List.find?_cons, show ((q, c).1 == p) = false by simp [hq]]
    exact find_other _ (Ne.symm hq)
  cases ev with
  | app ep con code token e =>
    injection h with h
    rw [show s' = (app s ep con code token e).1 by rw [h], state_congr (app_sess _ _ _ _ _ _)]; exact hd
  | accept q =>
    injection h with h; injection h with h _
    rw [← h]; unfold state at hd ⊢
    dsimp only
    rw [hcons _ _ _ hr]; exact hd
  | connect q =>
    injection h with h; injection h with h _
    rw [← h]; unfold state at hd ⊢
    dsimp only
    rw [hcons _ _ _ hr]; exact hd
  | ended q =>
    injection h with h; injection h with h _
    rw [← h]; unfold state at hd ⊢
    dsimp only
    rw [find_other _ (Ne.symm hr)]; exact hd
  | expire i =>
    injection h with h; injection h with h _
    rw [← h, state_congr (clear_sess _ _)]; exact hd
  | msg m e =>
    have h' : ∃ r, inbound s m e = .ok r ∧ r.st = s' := by
      unfold step at h
      dsimp only at h
      split at h
      · rename_i r hk
        injection h with h; injection h with h _
        exact ⟨r, hk, h⟩
      · cases h
    obtain ⟨r, hk, hst⟩ := h'
    rw [← hst]
    unfold inbound at hk
    have hmain : ∀ {r : Res}, main (settle s (parsed m)) (parsed m) e = .ok r → state r.st p = some .done := by
      intro r h
      rw [state_congr (main_sess h), state_congr (settle_sess s (parsed m))]; exact hd
    split at hk
    · rename_i status he
      injection hk with hk
      rw [← hk]
      unfold invalid
      split
      · rename_i ht
        rw [parsed_ep] at ht ⊢
        show state (closeSession s m.ep) p = _
        rw [state_close s m.ep (fun hh => hr ⟨hh.1, hh.2.symm, .inl (by rw [he]; rfl)⟩)]
        exact hd
      · exact hd
    · dsimp only at hk
      split at hk
      · split at hk
        · rename_i r0 hs
          injection hk with hk
          subst hk
          have hd' : state (settle s (parsed m)) p = some .done := by rw [state_congr (settle_sess s (parsed m))]; exact hd
          have hset : state (setCsm (settle s (parsed m)) (parsed m).ep .done) p = some .done := by
            rw [state_set, hd']; split <;> rfl
          unfold signal at hs
          split at hs
          · split at hs <;> (injection hs with hs; rw [← hs])
            · exact hd'
            · exact hset
            · exact hset
          · split at hs
            · injection hs with hs; rw [← hs]; exact hd'
            · split at hs
              · cases hs
              · split at hs
                · rename_i hcode
                  injection hs with hs; rw [← hs]
                  show state (closeSession _ _) p = _
                  rw [parsed_ep, state_close _ _ (fun hh => hr ⟨hh.1, hh.2.symm, .inr (by rw [parsed_code] at hcode; simpa using hcode)⟩)]
                  exact hd'
                · injection hs with hs; rw [← hs]; exact hd'
        · exact hmain hk
      · exact hmain hk

theorem run_done : ∀ (evs : List Ev) {s s' : St} {outs : List Sent} {p : Nat}, state s p = some .done → (∀ ev ∈ evs, ¬Renews p ev) →
    run s evs = .ok (s', outs) → state s' p = some .done
  | [], s, s', outs, p, hd, _, h => by
    injection h with h; injection h with h _; rw [← h]; exact hd
  | ev :: evs, s, s', outs, p, hd, hr, h => by
    rw [run] at h
    cases h1 : step s ev with
    | ub => rw [h1] at h; cases h
    | ok x =>
      rw [h1] at h
      dsimp only at h
      cases h2 : run x.1 evs with
      | ub => rw [h2] at h; cases h
      | ok y =>
        rw [h2] at h
        injection h with h; injection h with h _
        rw [← h]
        exact run_done evs (s := x.1) (step_done hd (hr ev (by simp)) h1) (fun z hz => hr z (by simp [hz])) h2

/-- C137: once a CSM has come over a session, then for the rest of the session, whatever
happens, no CSM is answered and none is sent ahead of a message. -/
theorem after_csm {s : St} {m : Msg} {e : Env} {evs : List Ev} {s' : St} {outs : List Sent} {c : Csm} (ht : m.ep.tcp = true) (he : e.err = none)
    (hc : m.code = 225) (ha : e.msgAlloc = true) (hs : state s m.ep.peer = some c) (hr : ∀ ev ∈ evs, ¬Renews m.ep.peer ev)
    (h : run s (.msg m e :: evs) = .ok (s', outs)) (m2 : Msg) (e2 : Env) (hm : m2.ep = m.ep) (hc2 : m2.code = 225) (he2 : e2.err = none)
    (p : Pkt) : inbound s' m2 e2 = .ok ⟨s', [], false, false⟩ ∧ post s' e2 m.ep p = [⟨m.ep, p⟩] := by
  obtain ⟨st, h1, h2, _⟩ := csm_answer ht he hc hs ha
  have hd : state s' m.ep.peer = some .done := by
    rw [run] at h
    have hstep : step s (.msg m e) = .ok (st, if c = .none then [⟨m.ep, ⟨true, 1, 225, 0, e.rnd, false⟩⟩] else []) := by
      show (match inbound s m e with | .ok r => (Out.ok (r.st, r.outs) : Out (St × List Sent)) | .ub => .ub) = _
      rw [h1]
    rw [hstep] at h
    dsimp only at h
    cases h3 : run st evs with
    | ub => rw [h3] at h; cases h
    | ok y =>
      rw [h3] at h
      injection h with h; injection h with h _
      rw [← h]
      exact run_done evs h2 hr h3
  have hcs : csm s' m.ep = .done := by rw [csm_state, if_pos ht, hd]; rfl
  constructor
  · refine inbound_signal (by rw [hm]; exact ht) he2 (by omega) (by omega) ?_
    unfold signal
    rw [parsed_code, hc2, parsed_ep, hm, hcs]
    rfl
  · unfold post
    rw [hcs]
    simp

/-- An accepted session, a CSM, a request. -/
example : ∃ s outs, run { start 5 with sess := [(1, .none)] } [.msg { exGet with ep := exTcp, code := 225 } exEnv, .msg { exGet with ep := exTcp } exEnv] = .ok (s, outs) ∧
    outs.map (fun o => (o.pkt.code, o.pkt.token)) = [(225, [9]), (69, [1, 2])] ∧ state { start 5 with sess := [(1, .none)] } 1 = some .none ∧
    ¬Renews 1 (.msg { exGet with ep := exTcp } exEnv) := ⟨_, _, rfl, rfl, rfl, by simp [Renews, exGet, exEnv]⟩

/-- C137: the exchange of CSMs between two engines ends: what the first sends because of a
CSM makes the second send at most one CSM, which makes the first send nothing. -/
theorem csm_ends {s1 s2 : St} {m : Msg} {e1 e2 e3 : Env} {c1 c2 : Csm} (ep2 : Ep) (ht : m.ep.tcp = true) (ht2 : ep2.tcp = true)
    (he1 : e1.err = none) (he2 : e2.err = none) (he3 : e3.err = none) (hc : m.code = 225)
    (hs1 : state s1 m.ep.peer = some c1) (hs2 : state s2 ep2.peer = some c2)
    (ha1 : e1.msgAlloc = true) (ha2 : e2.msgAlloc = true) (ha3 : e3.msgAlloc = true) :
    ∃ r1, inbound s1 m e1 = .ok r1 ∧ r1.outs.length ≤ 1 ∧ ∀ o ∈ r1.outs,
      ∃ r2, inbound s2 (delivered o ep2) e2 = .ok r2 ∧ r2.outs.length ≤ 1 ∧ ∀ o2 ∈ r2.outs,
        ∃ r3, inbound r1.st (delivered o2 m.ep) e3 = .ok r3 ∧ r3.outs = [] := by
  obtain ⟨t1, h1, h2, _⟩ := csm_answer ht he1 hc hs1 ha1
  refine ⟨_, h1, by dsimp only; split <;> simp, fun o ho => ?_⟩
  have hoc : o.pkt.code = 225 := by
    dsimp only at ho
    split at ho
    · rw [List.mem_singleton.mp ho]
    · cases ho
  obtain ⟨t2, k1, k2, _⟩ := csm_answer (m := delivered o ep2) ht2 he2 hoc hs2 ha2
  refine ⟨_, k1, by dsimp only; split <;> simp, fun o2 ho2 => ?_⟩
  have hoc2 : o2.pkt.code = 225 := by
    dsimp only at ho2
    split at ho2
    · rw [List.mem_singleton.mp ho2]
    · cases ho2
  obtain ⟨t3, l1, _⟩ := csm_answer (s := t1) (m := delivered o2 m.ep) ht he3 hoc2 h2 ha3
  exact ⟨_, l1, rfl⟩

/-- C137: false that at most one CSM is sent over a session: until the peer's CSM comes, every
message over an accepted session has a CSM ahead of it (coap.c:1437-1438 does not note that
it was sent). -/
theorem csm_again_false : ∃ s outs, run (start 5) [.accept 1, .msg { exGet with ep := exTcp } exEnv, .msg { exGet with ep := exTcp } exEnv] = .ok (s, outs) ∧
    outs.map (fun o => o.pkt.code) = [225, 69, 225, 69] := ⟨_, _, rfl, rfl⟩

/-- C137: false that the first message over a connection is a CSM (RFC 8323 5.3): a device
that connects never sends one, because its session begins as if it had (tcpsession.c:578). -/
theorem csm_missing_false : ∃ s outs, run (start 5) [.connect 1, .app exTcp true 1 [3] exEnv, .msg { exGet with ep := exTcp, code := 225 } exEnv,
      .app exTcp true 1 [4] exEnv] = .ok (s, outs) ∧ outs.map (fun o => o.pkt.code) = [1, 1] := ⟨_, _, rfl, rfl⟩

/-- C137: false that signals exist only over TCP: a message over UDP with the code of a ping or
a CSM is answered by a message in the framing of TCP, and one with the code of a release
goes to `oc_close_session` (signal.c:194-236, engine.c:1147-1152). -/
theorem signal_udp_false :
    (∃ r, inbound (start 5) { exGet with code := 226 } exEnv = .ok r ∧ r.outs = [⟨exEp, ⟨true, 1, 227, 0, [1, 2], false⟩⟩]) ∧
    (∃ r, inbound (start 5) { exGet with code := 225 } exEnv = .ok r ∧ r.outs = [⟨exEp, ⟨true, 1, 225, 0, [9], false⟩⟩]) ∧
    (∃ r, inbound (start 5) { exGet with code := 228 } exEnv = .ok r ∧ r.closed = true) := ⟨⟨_, rfl, rfl⟩, ⟨_, rfl, rfl⟩, ⟨_, rfl, rfl⟩⟩

end Verif.Engine
