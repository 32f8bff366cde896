import Verif.Client.Runs
/-! # C63, C64: requests of a client, their handlers and their release -/
namespace Verif.Client
open Verif

/-! ### What is released, and when handlers run -/

/-- Every request that was made is either still held, once, and not released, or it was released
exactly once; what was never made was never released.  Whatever handlers do. -/
theorem released_once {beh c} (h : Reach beh c) (id : Nat) :
    ((∃ t e, Ev.alloc id t e ∈ c.st.log) →
      (c.st.log.count (.freed id) = 1 ∧ ∀ x ∈ c.st.cbs ++ c.st.out, x.id ≠ id) ∨
      (c.st.log.count (.freed id) = 0 ∧ ∃ x ∈ c.st.cbs ++ c.st.out, x.id = id)) ∧
    ((∀ t e, Ev.alloc id t e ∉ c.st.log) → c.st.log.count (.freed id) = 0) := by
  have ha := acc_reach h id
  have hl := allocs_reach h id
  constructor
  · intro hx
    rw [if_pos (hl.1 hx)] at ha
    by_cases hc : 0 < cnt id c.st.mem
    · exact .inr ⟨by omega, cnt_pos.1 hc⟩
    · refine .inl ⟨by omega, fun x hx e => hc (cnt_pos.2 ⟨x, hx, e⟩)⟩
  · intro hx
    rw [if_neg (fun hh => let ⟨t, e, h⟩ := hl.2 hh; hx t e h)] at ha
    omega

/-- No handler is called for a request that was released. -/
theorem never_after_release {beh c} (h : Reach beh c) {id code l1 l2} (e : c.st.log = l1 ++ .freed id :: l2) : .called id code ∉ l2 :=
  quiet_reach h id code l1 l2 e

/-- The handler of a request runs at most once, unless the request is an observation, a
multicast, a discovery or a ping, or a response to it carried the Observe option. -/
theorem at_most_once_partial {beh c} (h : Reach beh c) {id} (hm : .many id ∉ c.st.log) (ho : .observed id ∉ c.st.log) :
    (c.st.log.filter (fun e => match e with | .called i _ => i == id | _ => false)).length ≤ 1 := by
  have := (inv3_reach h).once id ⟨hm, ho⟩
  unfold sum at this
  rw [← List.countP_eq_length_filter]
  have hc : calls id c.st.log = c.st.log.countP (fun e => match e with | .called i _ => i == id | _ => false) := by
    unfold calls
    congr 1
  omega

/-- A handler is called with a response only if the response carries the token of its request. -/
theorem response_token {beh c} (h : Reach beh c) {id tok ep} (hm : .called id (.response tok ep) ∈ c.st.log) :
    ∃ e, .alloc id tok e ∈ c.st.log := (invR_reach h).log id tok ep hm

/-- When the closing of a session is over, no request to its peer is pending that is neither a multicast nor a
discovery nor in use. -/
theorem close_leaves_none {beh ep s s'} (hp : ep ∈ s.peers)
    (h : ∃ c, start (.act (.close ep)) s = .ok c ∧ Steps beh c ⟨[], s'⟩) :
    ∀ x ∈ s'.cbs, x.ep = ep → x.multicast = true ∨ x.discovery = true ∨ x.ref = true := by
  obtain ⟨c, hs, hst⟩ := h
  simp only [start, act, Out.bind, close, if_pos hp] at hs
  cases hs
  have := loop_clears (pre := [_]) hst
  rcases this with ⟨pre, e⟩ | ⟨_, hx⟩
  · exact absurd e (by simp)
  · intro x hm e
    have hh := hx x hm
    simp only [Pick.hit] at hh
    revert hh
    cases x.multicast <;> cases x.discovery <;> cases x.ref <;> simp [e]

/-- With handlers that make no calls other than those of `Act.tame`, the handlers of all requests to the peer have
been called when the closing of the session is over. -/
theorem close_tells_all_partial {beh ep s s'} (hb : ∀ n, ∀ a ∈ beh n, a.tame = true) (hr : ReachT beh ⟨[], s⟩) (hp : ep ∈ s.peers)
    (h : ∃ c, start (.act (.close ep)) s = .ok c ∧ Steps beh c ⟨[], s'⟩)
    {x} (hx : x ∈ s.cbs) (hxe : x.ep = ep) (h1 : x.multicast = false) (h2 : x.discovery = false) (h3 : x.ref = false) :
    ∃ code, .called x.id code ∈ s'.log := by
  have hl := close_leaves_none hp h
  obtain ⟨c, hs, hst⟩ := h
  have hi := invU_reach hb hr
  have hi2 : InvU c := by
    obtain ⟨d, e, hd⟩ := hi.start (o := .act (.close ep)) rfl
    rw [hs] at e; cases e; exact hd
  simp only [start, act, Out.bind, close, if_pos hp] at hs
  cases hs
  have t : Tell x.id x.busy ⟨[.transLoop ep (headT s), .loop (.ep ep) .connectionClosed], { s with peers := s.peers.filter (· != ep) }⟩ :=
    ⟨hi2, .inl ⟨x, hx, rfl, rfl⟩, fun f hf => by simp at hf; rcases hf with rfl | rfl <;> trivial⟩
  have t' := t.steps hb hst
  have tok := tok_reach (hr.reach)
  have tr : Reach beh ⟨[], s'⟩ := by
    have h0 : Reach beh ⟨[.transLoop ep (headT s), .loop (.ep ep) .connectionClosed], { s with peers := s.peers.filter (· != ep) }⟩ :=
      .op (o := .act (.close ep)) hr.reach (by simp only [start, act, Out.bind, close, if_pos hp])
    exact steps_reach h0 hst
  rcases t'.tell with ⟨y, hy, e, hb⟩ | ⟨code, hm⟩ | hc
  · have a1 := tok x (List.mem_append_left _ hx)
    have a2 := tok_reach tr y (List.mem_append_left _ hy)
    have a1' : Ev.alloc x.id x.token x.ep ∈ s'.log := steps_log hst a1
    rw [e] at a2
    have := hl y hy (by rw [← hxe]; exact (alloc_unique tr a2 a1').2)
    simp only [Cb.busy, Prod.mk.injEq, h1, h2, h3] at hb
    rw [hb.1, hb.2.1, hb.2.2] at this
    simp at this
  · cases hm
  · exact hc

/-- A pending request that is not an observation, a multicast, a discovery or a ping has a delayed callback that will
remove it, unless the request was prepared in one call and sent in another. -/
theorem removal_is_scheduled_partial {beh c} (hb : ∀ n, ∀ a ∈ beh n, a.whole = true) (h : ReachW beh c) {x} (hx : x ∈ c.st.cbs)
    (hm : .many x.id ∉ c.st.log) (ho : .observed x.id ∉ c.st.log) : (x.id, Kind.remove) ∈ c.st.timers :=
  (kept_reach hb h).1 x hx ⟨hm, ho⟩

/-- If requests over secure sessions are not confirmable, `oc_init_post` and `oc_do_post` come together and succeed, and
handlers neither close sessions nor see `oc_stop_observe` fail, no memory is used after it was released. -/
theorem no_use_after_free_partial {beh} (hb : ∀ n, ∀ a ∈ beh n, a.tame = true) :
    (∀ c, ReachT beh c → ∃ c', next beh c = .ok c') ∧
    (∀ s o, ReachT beh ⟨[], s⟩ → o.tame = true → ∃ c, start o s = .ok c) :=
  ⟨fun _ h => let ⟨c', e, _⟩ := (invU_reach hb h).next hb; ⟨c', e⟩,
   fun _ _ h ho => let ⟨c', e, _⟩ := (invU_reach hb h).start ho; ⟨c', e⟩⟩

/-! ### Examples -/

def req1 : Req := ⟨1, 7, 5, 3, true, true, false⟩
def quietBeh : Nat → List Act := fun _ => []

/-- What was called and released. -/
def outcome (x : Out Conf) : Option (List Ev × List Nat × Nat) :=
  match x with
  | .ok c => some (c.st.log, c.st.cbs.map (·.id), c.stack.length)
  | .ub => none

theorem script_outcome {beh k ops l ids} (h : outcome (script beh k ops init) = some (l, ids, 0)) :
    ∃ c, Reach beh c ∧ c.stack = [] ∧ c.st.log = l ∧ c.st.cbs.map (·.id) = ids := by
  unfold outcome at h
  split at h
  · rename_i c e
    simp only [Option.some.injEq, Prod.mk.injEq] at h
    exact ⟨c, script_reach .init e, List.length_eq_zero_iff.1 h.2.2, h.1, h.2.1⟩
  · cases h

/-- A request, its response, a second response with the same token. -/
example : outcome (script quietBeh 20 [.act (.req .get req1 .sent), .resp 1 7 5 none .good false false false,
    .resp 1 7 5 none .good false false false] init) =
    some ([.alloc 0 7 5, .called 0 (.response 7 5), .freed 0], [], 0) := by decide

/-- The session is closed while two requests are pending; the handler of the first makes a new one. -/
example : outcome (script (fun n => if n = 0 then [.req .get ⟨4, 9, 6, 3, true, true, false⟩ .sent] else []) 40
    [.connect 5, .act (.req .get req1 .sent), .act (.req .delete { req1 with mid := 2, token := 8 } .sent), .act (.close 5)] init) =
    some ([.alloc 0 7 5, .alloc 1 8 5, .called 0 .connectionClosed, .alloc 2 9 6, .freed 0, .called 1 .connectionClosed, .freed 1], [2], 0) := by decide

example : (Op.act (.req .get req1 .sent)).tame = true ∧ (Op.act (.close 5)).tame = true ∧
    (Act.req .get ⟨4, 9, 6, 3, true, true, false⟩ .sent).tame = true ∧ (Op.act (.post req1 .sent)).tame = true := by decide

/-- Its removal is scheduled. -/
example : (match script quietBeh 20 [.act (.req .get req1 .sent)] init with
    | .ok c => c.st.timers | .ub => []) = [(0, .remove), (0, .timeout)] := by decide

/-! ### What does not hold -/

/-- The handler of a ping that timed out closes the session of its peer: the request of the ping is released in
`oc_ri_free_client_cbs_by_endpoint_v1`, and again in `oc_remove_ping_handler_async` (oc_ping.c:41). -/
theorem ping_close_ub : ReachUb (fun n => if n = 0 then [.close 5] else []) :=
  script_undef .init (k := 40) (ops := [.connect 5, .act (.ping 1 5 true), .fire 0 .ping]) (by decide)

/-- The handler of a confirmable request over a secure session that timed out closes the session: `coap_send_transaction`
goes on with a transaction that is gone (transactions.c:193). -/
theorem timeout_close_ub : ReachUb (fun n => if n = 0 then [.close 5] else []) :=
  script_undef .init (k := 40) (ops := [.connect 5, .act (.req .get ⟨1, 7, 5, 3, true, true, true⟩ .sent), .check (fun _ => true)]) (by decide)

/-- Two confirmable requests over a secure session; the first one times out and its handler makes a new request.  The second
transaction is removed with the session, but the number of transactions is only one less than before, so
`coap_check_transactions` goes on with it (transactions.c:254-259). -/
theorem check_next_ub : ReachUb (fun n => if n = 0 then [.req .get ⟨9, 9, 6, 1, true, true, true⟩ .sent] else []) :=
  script_undef .init (k := 60) (ops := [.connect 5, .act (.req .get ⟨1, 7, 5, 3, true, true, true⟩ .sent),
    .act (.req .get ⟨2, 8, 5, 3, true, true, true⟩ .sent), .check (fun n => n == 0)]) (by decide)

/-- `oc_do_post` whose message cannot be built uses the request buffer after it was released. -/
theorem failed_post_ub : ReachUb quietBeh :=
  script_undef .init (k := 40) (ops := [.act (.post req1 .notSent)]) (by decide)

/-- `oc_init_post`, another request, `oc_do_post`: the other request resets what was prepared, and `oc_do_post`
uses a null pointer. -/
theorem get_between_post_ub : ReachUb quietBeh :=
  script_undef .init (k := 40) (ops := [.act (.initPost req1 .sent), .act (.req .get { req1 with mid := 2, token := 8 } .sent),
    .act (.doPost true false .sent)]) (by decide)

/-- `oc_stop_observe` that fails in the handler of a notification releases the request; the code after the handler uses it. -/
theorem stop_observe_fails_ub : ReachUb (fun _ => [.stopObserve 3 5 7 true false .notSent]) :=
  script_undef .init (k := 40) (ops := [.act (.req .observe req1 .sent), .resp 1 7 5 (some 5) .good false false false]) (by decide)

/-- `oc_init_post` twice: the first request is neither sent nor scheduled for removal nor released. -/
theorem init_twice_false : ¬ ∀ c, Reach quietBeh c → c.stack = [] → ∀ x ∈ c.st.cbs, .many x.id ∉ c.st.log → .observed x.id ∉ c.st.log →
    (x.id, Kind.remove) ∈ c.st.timers ∨ ∃ t, c.st.disp = some (x.id, t) := by
  intro h
  have e : ∃ c, script quietBeh 40 [.act (.initPost req1 .sent), .act (.initPost { req1 with mid := 2, token := 8 } .sent)] init = .ok c ∧
      c.stack.length = 0 ∧ c.st.log = [.alloc 0 7 5, .alloc 1 8 5] ∧ c.st.cbs.map (·.id) = [0, 1] ∧ c.st.timers = [] ∧ c.st.disp = some (1, 1) :=
    ⟨_, rfl, rfl, rfl, rfl, rfl, rfl⟩
  obtain ⟨c, e, h1, h2, h3, h4, h5⟩ := e
  have hx : ∃ x ∈ c.st.cbs, x.id = 0 := by
    have : 0 ∈ c.st.cbs.map (·.id) := by rw [h3]; decide
    simpa using this
  obtain ⟨x, hx, hi⟩ := hx
  rcases h c (script_reach .init e) (List.length_eq_zero_iff.1 h1) x hx (by rw [h2, hi]; decide) (by rw [h2, hi]; decide) with h | ⟨t, h⟩
  · rw [h4] at h; cases h
  · rw [h5, hi] at h; cases h

/-- A response with the Observe option to a GET request that did not ask for it keeps the request: its handler is called
for every response of the server. -/
theorem unsolicited_observe_false : ¬ ∀ c, Reach quietBeh c → ∀ id, .many id ∉ c.st.log →
    (c.st.log.filter (fun e => match e with | .called i _ => i == id | _ => false)).length ≤ 1 := by
  intro h
  obtain ⟨c, hr, _, e, _⟩ := script_outcome (beh := quietBeh) (k := 20) (ops := [.act (.req .get req1 .sent),
    .resp 1 7 5 (some 7) .good false false false, .resp 1 7 5 (some 8) .good false false false])
    (l := [.alloc 0 7 5, .observed 0, .called 0 (.response 7 5), .observed 0, .called 0 (.response 7 5)]) (ids := [0]) (by decide)
  have := h c hr 0
  rw [e] at this
  exact absurd (this (by decide)) (by decide)

/-- `OC_STOP_DISCOVERY` does not end a discovery: the loop that should end the request skips discoveries
(oc_client_cb.c:293-294), and the handler is called for the next response. -/
theorem stop_discovery_false : ¬ ∀ c, Reach quietBeh c → ∀ id,
    (c.st.log.filter (fun e => match e with | .called i _ => i == id | _ => false)).length ≤ 1 := by
  intro h
  obtain ⟨c, hr, _, e, _⟩ := script_outcome (beh := quietBeh) (k := 20) (ops := [.act (.req .discovery req1 .sent),
    .resp 1 7 5 none .good false false true, .resp 1 7 5 none .good false false true])
    (l := [.alloc 0 7 5, .many 0, .called 0 (.response 7 5), .called 0 (.response 7 5)]) (ids := [0]) (by decide)
  have := h c hr 0
  rw [e] at this
  exact absurd this (by decide)

/-- `oc_stop_multicast` in the handler does not stop it: the loop that should end the request skips multicasts. -/
theorem stop_multicast_false : ¬ ∀ c, Reach (fun _ => [.stopMulticast]) c → ∀ id,
    (c.st.log.filter (fun e => match e with | .called i _ => i == id | _ => false)).length ≤ 1 := by
  intro h
  obtain ⟨c, hr, _, e, _⟩ := script_outcome (beh := fun _ => [.stopMulticast]) (k := 20) (ops := [.act (.req .multicast req1 .sent),
    .resp 1 7 5 none .good false false false, .resp 1 7 6 none .good false false false])
    (l := [.alloc 0 7 5, .many 0, .called 0 (.response 7 5), .called 0 (.response 7 6)]) (ids := [0]) (by decide)
  have := h c hr 0
  rw [e] at this
  exact absurd this (by decide)

/-- A response with a payload that cannot be parsed ends a request with a timeout without any call of its handler. -/
theorem bad_payload_false : ¬ ∀ c, Reach quietBeh c → ∀ id, .freed id ∈ c.st.log → (id, Kind.timeout) ∉ c.st.timers →
    ∃ code, .called id code ∈ c.st.log := by
  intro h
  have e : ∃ c, script quietBeh 40 [.act (.req .get req1 .sent), .resp 1 7 5 none .bad false false false] init = .ok c ∧
      c.st.log = [.alloc 0 7 5, .freed 0] ∧ c.st.timers = [] := ⟨_, rfl, rfl, rfl⟩
  obtain ⟨c, e, h1, h2⟩ := e
  obtain ⟨code, hc⟩ := h c (script_reach .init e) 0 (by rw [h1]; decide) (by rw [h2]; simp)
  rw [h1] at hc
  simp at hc

/-- After a notification that is older than the last one (OSCORE), the observation is marked as in use for ever:
the closing of the session does not end it. -/
theorem old_notification_false : ¬ ∀ (s s' : St), Reach quietBeh ⟨[], s⟩ → 5 ∈ s.peers →
    (∃ c, start (.act (.close 5)) s = .ok c ∧ Steps quietBeh c ⟨[], s'⟩) →
    ∀ x ∈ s'.cbs, x.ep = 5 → x.multicast = true ∨ x.discovery = true := by
  intro h
  have e : ∃ s, script quietBeh 40 [.connect 5, .act (.req .observe { req1 with con := false } .sent),
      .resp 1 7 5 (some 5) .good false true false] init = .ok ⟨[], s⟩ ∧ 5 ∈ s.peers ∧
      ∃ c s', start (.act (.close 5)) s = .ok c ∧ settle quietBeh 40 c = .ok ⟨[], s'⟩ ∧
        ∃ x ∈ s'.cbs, x.ep = 5 ∧ x.multicast = false ∧ x.discovery = false :=
    ⟨_, rfl, by decide, _, _, rfl, rfl, _, List.mem_cons_self, rfl, rfl, rfl⟩
  obtain ⟨s, e, hp, c, s', h1, h2, x, hx, h3, h4, h5⟩ := e
  have := h s s' (script_reach .init e) hp ⟨c, h1, settle_steps h2⟩ x hx h3
  rw [h4, h5] at this
  simp at this

/-- A response from another endpoint with the right token is accepted. -/
theorem foreign_response_false : ¬ ∀ c, Reach quietBeh c → ∀ id tok e ep, .alloc id tok e ∈ c.st.log → .many id ∉ c.st.log →
    .called id (.response tok ep) ∈ c.st.log → ep = e := by
  intro h
  obtain ⟨c, hr, _, e, _⟩ := script_outcome (beh := quietBeh) (k := 20) (ops := [.act (.req .get req1 .sent),
    .resp 99 7 6 none .good false false false])
    (l := [.alloc 0 7 5, .called 0 (.response 7 6), .freed 0]) (ids := []) (by decide)
  have := h c hr 0 7 5 6
  rw [e] at this
  exact absurd (this (by decide) (by decide) (by decide)) (by decide)

/-- A handler that makes its request again when the session was closed is called for ever: the loop that ends the requests
of the peer never comes to its end. -/
theorem retry_never_ends_false : ∃ s c, Reach retry ⟨[], s⟩ ∧ start (.act (.close 5)) s = .ok c ∧
    (∀ n, ∃ c', Steps retry c c' ∧ c'.st.calls = n ∧ c'.stack ≠ []) ∧ ∀ s', ¬ Steps retry c ⟨[], s'⟩ := by
  have e : ∃ s c, script retry 40 [.connect 5, .act (.req .get ⟨1, 7, 5, 3, false, false, false⟩ .sent)] init = .ok ⟨[], s⟩ ∧
      start (.act (.close 5)) s = .ok c ∧ ∃ s1, Steps retry c ⟨[.loop (.ep 5) .connectionClosed], s1⟩ ∧ Again 0 s1 :=
    ⟨_, _, rfl, rfl, _, .step .refl rfl, ⟨_, rfl, rfl, rfl, rfl, rfl, rfl, by decide⟩, rfl, rfl, by decide⟩
  obtain ⟨s, c, h1, h2, s1, h3, h4⟩ := e
  have key : ∀ n, ∃ s', Steps retry c ⟨[.loop (.ep 5) .connectionClosed], s'⟩ ∧ Again n s' := by
    intro n
    induction n with
    | zero => exact ⟨s1, h3, h4⟩
    | succ n ih =>
      obtain ⟨s', h5, h6⟩ := ih
      obtain ⟨s'', h7, h8⟩ := again_step h6
      exact ⟨s'', steps_trans h5 h7, h8⟩
  refine ⟨s, c, script_reach .init h1, h2, fun n => ?_, fun s' hs => ?_⟩
  · obtain ⟨s', h5, h6⟩ := key n
    exact ⟨_, h5, h6.calls, by simp⟩
  · obtain ⟨s2, h5, h6⟩ := key (s'.log.length + 1)
    rcases steps_det hs h5 with hd | hd
    · have := steps_done hd
      simp at this
    · obtain ⟨ext, e⟩ := steps_ext hd
      have e : s'.log = s2.log ++ ext := e
      have := h6.log
      rw [e] at this
      simp at this
      omega

end Verif.Client
