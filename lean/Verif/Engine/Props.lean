import Verif.Engine.Steps

/-!
C135: every request is answered as RFC 7252 says, to the one who asked.
C136: what one message leaves behind does not disturb the next.
C137: signal messages.
-/

namespace Verif.Engine

/-- A device of `ep` 1 over UDP, used in the examples. -/
def exEp : Ep := ⟨1, 0, false, false, false, true⟩

/-- The same peer over TCP. -/
def exTcp : Ep := ⟨1, 0, true, false, false, true⟩

/-- A confirmable GET. -/
def exGet : Msg := ⟨exEp, 0, 1, 7, [1, 2], false, 0, none, none, false⟩

/-- Nothing special: the handler answers 2.05. -/
def exEnv : Env := ⟨none, true, true, true, true, false, none, true, true, .none, false, (69, false), .none, none, [9]⟩

/-- What is sent in answer to a request over UDP: nothing, a reset, or one
answer with the request's token and at most an empty acknowledgement before it.
`s.cnt` and `r.st.cnt` count the message ids given out. -/
inductive Shape (m : Msg) (e : Env) (a b : Nat) : List Sent → Prop where
  | silent : Shape m e a b []
  | reset : Shape m e a b [rst m]
  | ack (h : m.typ = 0) : Shape m e a b [emptyAck m]
  | piggy (h : m.typ = 0) (c : Nat) : Shape m e a b [piggybacked m c]
  | sep (h : m.typ = 0) (n c : Nat) (ha : a < n) (hb : n ≤ b) : Shape m e a b [emptyAck m, own m 0 c (wire n)]
  | noAck (h : m.typ = 0) (hm : e.msgAlloc = false) (n c : Nat) (ha : a < n) (hb : n ≤ b) :
    Shape m e a b [own m 0 c (wire n)]
  | both (h : m.typ = 0) (h0 : e.ans.1 = 0) : Shape m e a b [emptyAck m, rst m]
  | non (h : m.typ ≠ 0) (t n c : Nat) (ht : t ≤ 1) (ha : a < n) (hb : n ≤ b) : Shape m e a b [own m t c (wire n)]

/-- C135: a request over UDP never fails to be processed, and the messages sent
because of it are of one of the shapes of RFC 7252: an acknowledgement or reset
carries the message id of the request, an answer carries its token, goes to the
sender, and when it is not in the acknowledgement has a new message id. -/
theorem reply_shape {s : St} {m : Msg} {e : Env} (hi : Inv s) (h : UdpRequest m e) :
    ∃ r, inbound s m e = .ok r ∧ Shape m e s.cnt r.st.cnt r.outs := by
  obtain ⟨hu, h1, h4, he⟩ := h
  rw [inbound_request he (fun h => absurd h (by rw [hu]; simp)) h1 h4, parsed_udp hu]
  have hi' := settle_inv m hi
  have hcnt := settle_cnt s m
  generalize settle s m = s0 at hi' hcnt
  rw [← hcnt]
  cases hr : initResponse s0 m with
  | none =>
    have : withMethod s0 m e = (⟨s0, [], udpPkt 0 0 0, none, false, false⟩, .dup) := by
      unfold withMethod; rw [hr]
    rw [this]
    exact ⟨_, rfl, .silent⟩
  | some x =>
    obtain ⟨s1, p⟩ := x
    have hfr := init_frame hr
    cases ht : e.txAlloc with
    | false =>
      have : withMethod s0 m e = (⟨s1, [], p, none, false, false⟩, .error) := by
        unfold withMethod; rw [hr]; dsimp only; rw [ht]; rfl
      rw [this, result_none _ _ _ rfl]
      exact ⟨_, rfl, .silent⟩
    | true =>
      rcases served (hfr.inv hi') hr ht with ⟨st, k, _⟩ | ⟨w', r', st, k1, k2, k3, k4, k5, k8, k6, k7, k9, _⟩
      · rw [k]
        exact ⟨_, rfl, .silent⟩
      · rw [k1]
        dsimp only
        rw [k6]
        refine ⟨_, rfl, ?_⟩
        dsimp only
        rw [ahead_udp hu, List.nil_append]
        have hini := init_udp hr hu
        have hp : p.token = [] ∧ p.typ ≠ 3 ∧ p.tcp = false ∧ p.custody = false := by
          rcases hini with ⟨_, _, hp⟩ | ⟨_, _, t, ht, hp⟩ <;> rw [hp]
          · exact ⟨rfl, by show (2 : Nat) ≠ 3; decide, rfl, rfl⟩
          · exact ⟨rfl, by show t ≠ 3; omega, rfl, rfl⟩
        cases k3 with
        | same hs ho c hc hpp =>
          have hc0 : st.cnt = s1.cnt := by rw [k9, hs]; rfl
          dsimp only at ho hpp
          rw [ho, List.nil_append]
          split
          · exact .silent
          · rcases final_shape (w' := w') (r' := r') (e := e) hu h1 h4 (by rw [hpp]; exact hp.1) (by rw [hpp]; exact hp.2.1)
              with ⟨_, hx⟩ | ⟨_, _, hx⟩
            · rw [hx]
              exact .reset
            · rw [hx, hpp]
              rcases hini with ⟨h0, _, hp⟩ | ⟨h0, hcn, t, ht, hp⟩ <;> rw [hp]
              · exact .piggy h0 c
              · exact .non h0 t (s0.cnt + 1) c ht (Nat.lt_succ_self _) (by rw [hc0, hcn]; exact Nat.le_refl _)
        | sep c0 c hc hs ho hpp =>
          rw [separate_outs c0 hu] at ho
          dsimp only [List.nil_append] at ho
          rw [ho]
          have hc0 : st.cnt = s1.cnt + 1 := by rw [k9, hs]; rfl
          have hle := hfr.cnt
          have hne : r' ≠ .error ∨ ackFirst m e = [] := by
            by_cases hr' : r' = .error
            · exact Or.inr (ho ▸ k8 hr')
            · exact Or.inl hr'
          have hack : (m.typ ≠ 0 ∧ ackFirst m e = []) ∨ (m.typ = 0 ∧ e.msgAlloc = false ∧ ackFirst m e = [])
              ∨ (m.typ = 0 ∧ ackFirst m e = [emptyAck m]) := by
            unfold ackFirst
            by_cases h0 : m.typ = 0
            · cases hm : e.msgAlloc
              · exact Or.inr (Or.inl ⟨h0, rfl, by simp⟩)
              · exact Or.inr (Or.inr ⟨h0, by simp [h0]⟩)
            · exact Or.inl ⟨h0, by simp [h0]⟩
          split
          · rcases hack with ⟨_, ha⟩ | ⟨_, _, ha⟩ | ⟨h0, ha⟩ <;> rw [ha]
            · exact .silent
            · exact .silent
            · exact .ack h0
          · rcases final_shape (w' := w') (r' := r') (e := e) hu h1 h4 (by rw [hpp]; rfl) (by rw [hpp]; show (0 : Nat) ≠ 3; decide)
              with ⟨hx0, hx⟩ | ⟨_, _, hx⟩
            · rw [hx]
              rcases hack with ⟨_, ha⟩ | ⟨_, _, ha⟩ | ⟨h0, ha⟩
              · rw [ha]; exact .reset
              · rw [ha]; exact .reset
              · rcases hx0 with hx0 | hx0
                · rcases hne with hn | hn
                  · exact absurd hx0 hn
                  · rw [ha] at hn; cases hn
                · rw [ha]
                  exact .both h0 (k5 hx0)
            · rw [hx, hpp]
              have hcnt1 : st.cnt = s1.cnt + 1 := hc0
              rcases hack with ⟨h0, ha⟩ | ⟨h0, hm, ha⟩ | ⟨h0, ha⟩ <;> rw [ha]
              · exact .non h0 0 (s1.cnt + 1) c (by omega) (by omega) (by omega)
              · exact .noAck h0 hm (s1.cnt + 1) c (by omega) (by omega)
              · exact .sep h0 (s1.cnt + 1) c (by omega) (by omega)

example : UdpRequest exGet exEnv ∧ Inv (start 5) := ⟨⟨rfl, by decide, by decide, rfl⟩, by intro t h; cases h⟩

/-- The answer with a given code, as RFC 7252 (and RFC 8323 over TCP) wants it:
in the acknowledgement if the request was confirmable, otherwise in a message of
its own with the next message id; `cnt` ids were given out before.  Answers to
`oic/res` are confirmable. -/
def answer (m : Msg) (cnt code : Nat) : Sent :=
  if m.ep.tcp = true then ⟨m.ep, ⟨true, 1, code, 0, m.token, false⟩⟩
  else if m.typ = 0 then piggybacked m code
  else own m (if m.res = true then 0 else 1) code (wire (cnt + 1))

/-- A request that is not taken for a repeated one. -/
def New (s : St) (m : Msg) : Prop :=
  m.ep.tcp = false → m.typ ≠ 0 → Dedup.isDup s.hist ⟨false, m.mid, m.ep.dev, m.ep.peer⟩ = false

theorem new_parsed {s : St} {m : Msg} (h : New s m) : New (settle s (parsed m)) (parsed m) := by
  intro hu h0
  rw [parsed_ep] at hu
  rw [parsed_udp hu] at h0 ⊢
  rw [settle_hist]
  exact h hu h0

theorem init_answer {s : St} {m : Msg} (h : New s m) :
    ∃ s1 p, initResponse (settle s (parsed m)) (parsed m) = some (s1, p) ∧ p.token = [] ∧ p.typ ≠ 3 ∧
      ∀ c, (⟨m.ep, { p with code := c, token := m.token }⟩ : Sent) = answer m s.cnt c := by
  obtain ⟨s1, h1⟩ := init_some (new_parsed h)
  refine ⟨s1, _, h1, ?_⟩
  unfold answer
  cases hu : m.ep.tcp
  · rw [parsed_udp hu]
    simp only [hu, Bool.false_eq_true, if_false]
    by_cases h0 : m.typ = 0
    · simp only [h0, beq_self_eq_true, if_true]
      exact ⟨rfl, by show (2 : Nat) ≠ 3; decide, fun c => rfl⟩
    · have hb : (m.typ == 0) = false := by simpa using h0
      simp only [hb, h0, Bool.false_eq_true, if_false, settle_cnt]
      refine ⟨rfl, ?_, fun c => rfl⟩
      show (if m.res then 0 else 1) ≠ 3
      split <;> decide
  · rw [parsed_ep, hu]
    simp only [if_true]
    exact ⟨rfl, by show (1 : Nat) ≠ 3; decide, fun c => rfl⟩

/-- C135: a request that the checks let through and whose handler sets a code is
handled once and answered by exactly one message (after the CSM that TCP may
want first), with that code, in the form and with the ids of RFC 7252. -/
theorem answered {s : St} {m : Msg} {e : Env} (hi : Inv s) (he : e.err = none) (h1 : 1 ≤ m.code) (h4 : m.code ≤ 4)
    (hb1 : m.b1 = none) (hb2 : m.b2 = none) (hu : Unhindered e) (hh : e.hdr = none)
    (hr : e.resetting = true → m.ep.secured = true) (hf : e.fits = true) (hs : e.store = true) (ha : e.ans.1 ≠ 0)
    (hn : New s m) :
    ∃ st, inbound s m e = .ok ⟨st, ahead s m.ep e ++ [answer m s.cnt e.ans.1], true, false⟩ := by
  obtain ⟨t1, t2, t3, t4, t5, t6, t7⟩ := hu
  rw [inbound_request he (fun _ => ⟨hb1, hb2⟩) h1 h4]
  obtain ⟨s1, p, hini, htok, htyp, hans⟩ := init_answer hn
  have hw : serve ⟨(newTx s1 p.mid (parsed m).ep).1, [], p, some (newTx s1 p.mid (parsed m).ep).2, false, false⟩ (parsed m) e
      = (⟨(newTx s1 p.mid (parsed m).ep).1, [], { p with code := e.ans.1 }, some (newTx s1 p.mid (parsed m).ep).2, false, true⟩, .success) := by
    unfold serve payload
    rw [hh, parsed_b1, parsed_b2, hb1, hb2]
    dsimp only
    have hpl : ∀ w, plain w (parsed m) e = (w, .handle) := by
      intro w
      unfold plain
      rw [t4, hf, t5, hs, parsed_ep]
      cases hrs : e.resetting
      · simp
      · simp [hr hrs]
    rw [hpl]
    unfold handled handler
    dsimp only
    rw [if_pos ha, t6]
    rfl
  obtain ⟨st, hq⟩ := serve_result (settle_inv _ hi) hini t1 hw (by simp)
  rw [hq]
  refine ⟨st, ?_⟩
  have hwt : withToken (parsed m) e { p with code := e.ans.1 } = { p with code := e.ans.1, token := m.token } := by
    rw [withToken_req (m := parsed m) (p := { p with code := e.ans.1 }) e (by rw [parsed_code]; exact h1) (by rw [parsed_code]; exact h4) htok htyp, parsed_token]
  have hfin : final ⟨(newTx s1 p.mid (parsed m).ep).1, [], { p with code := e.ans.1 }, some (newTx s1 p.mid (parsed m).ep).2, false, true⟩
      .success (parsed m) = { p with code := e.ans.1 } := rfl
  dsimp only
  rw [hfin, hwt, t3, t4, parsed_ep, hans, ahead_sess (settle_sess s (parsed m))]
  rfl

example : Unhindered exEnv ∧ New (start 5) exGet ∧
    inbound (start 5) exGet exEnv = .ok ⟨{ start 5 with nextId := 1, ctx := some (some 0) }, [piggybacked exGet 69], true, false⟩ := by
  refine ⟨⟨rfl, rfl, rfl, rfl, rfl, rfl, fun x h => by cases h⟩, fun _ h => absurd rfl h, by decide⟩

/-- C135: a request that the checks refuse with a code is not handled and is
answered by exactly one message with that code, whatever its block options. -/
theorem refused {s : St} {m : Msg} {e : Env} {c : Nat} (hi : Inv s) (he : e.err = none) (h1 : 1 ≤ m.code)
    (h4 : m.code ≤ 4) (ho : Ordinary m) (hu : Unhindered e) (hh : e.hdr = some (c, false)) (hn : New s m) :
    ∃ st, inbound s m e = .ok ⟨st, ahead s m.ep e ++ [answer m s.cnt c], false, false⟩ := by
  obtain ⟨t1, t2, t3, t4, t5, t6, t7⟩ := hu
  have hc : c ≠ 0 := (t7 _ hh).2
  rw [inbound_request he ho h1 h4]
  obtain ⟨s1, p, hini, htok, htyp, hans⟩ := init_answer hn
  have hw : serve ⟨(newTx s1 p.mid (parsed m).ep).1, [], p, some (newTx s1 p.mid (parsed m).ep).2, false, false⟩ (parsed m) e
      = (⟨(newTx s1 p.mid (parsed m).ep).1, [], { p with code := c }, some (newTx s1 p.mid (parsed m).ep).2, false, false⟩, .success) := by
    unfold serve
    rw [hh]
    dsimp only
    rw [if_pos hc]
  obtain ⟨st, hq⟩ := serve_result (settle_inv _ hi) hini t1 hw (by simp)
  rw [hq]
  refine ⟨st, ?_⟩
  have hwt : withToken (parsed m) e { p with code := c } = { p with code := c, token := m.token } := by
    rw [withToken_req (m := parsed m) (p := { p with code := c }) e (by rw [parsed_code]; exact h1) (by rw [parsed_code]; exact h4) htok htyp, parsed_token]
  have hfin : final ⟨(newTx s1 p.mid (parsed m).ep).1, [], { p with code := c }, some (newTx s1 p.mid (parsed m).ep).2, false, false⟩
      .success (parsed m) = { p with code := c } := rfl
  dsimp only
  rw [hfin, hwt, t3, t4, parsed_ep, hans, ahead_sess (settle_sess s (parsed m))]
  rfl

example : Unhindered { exEnv with hdr := some (132, false) } :=
  ⟨rfl, rfl, rfl, rfl, rfl, rfl, fun x h => by injection h with h; subst h; exact ⟨rfl, by decide⟩⟩

/-- C135: while the device is being reset, a request that is not secured and has
no block option is not handled: it gets a reset, over TCP 5.00. -/
theorem during_reset {s : St} {m : Msg} {e : Env} (hi : Inv s) (he : e.err = none) (h1 : 1 ≤ m.code) (h4 : m.code ≤ 4)
    (hb1 : m.b1 = none) (hb2 : m.b2 = none) (hu : Unhindered e) (hh : e.hdr = none)
    (hr : e.resetting = true) (hsec : m.ep.secured = false) (hn : New s m) :
    ∃ st, inbound s m e = .ok ⟨st, ahead s m.ep e ++
      [if m.ep.tcp = true then answer m s.cnt 160 else rst m], false, false⟩ := by
  obtain ⟨t1, t2, t3, t4, t5, t6, t7⟩ := hu
  rw [inbound_request he (fun _ => ⟨hb1, hb2⟩) h1 h4]
  obtain ⟨s1, p, hini, htok, htyp, hans⟩ := init_answer hn
  have hw : serve ⟨(newTx s1 p.mid (parsed m).ep).1, [], p, some (newTx s1 p.mid (parsed m).ep).2, false, false⟩ (parsed m) e
      = (⟨(newTx s1 p.mid (parsed m).ep).1, [], p, some (newTx s1 p.mid (parsed m).ep).2, false, false⟩, .error) := by
    unfold serve payload
    rw [hh, parsed_b1, parsed_b2, hb1, hb2]
    dsimp only
    unfold plain
    rw [t4, hr, parsed_ep, hsec]
    rfl
  obtain ⟨st, hq⟩ := serve_result (settle_inv _ hi) hini t1 hw (by simp)
  rw [hq]
  refine ⟨st, ?_⟩
  have hfin : withToken (parsed m) e (final ⟨(newTx s1 p.mid (parsed m).ep).1, [], p, some (newTx s1 p.mid (parsed m).ep).2, false, false⟩
      .error (parsed m)) = if m.ep.tcp = true then ⟨true, 1, 160, 0, m.token, false⟩ else udpPkt 3 0 m.mid := by
    unfold final
    rw [parsed_ep]
    cases htcp : m.ep.tcp
    · rw [parsed_udp htcp]
      exact withToken_rst _ _ rfl
    · simp only [if_true]
      rw [withToken_req e (by rw [parsed_code]; exact h1) (by rw [parsed_code]; exact h4)
        (by rfl) (by show (1 : Nat) ≠ 3; decide), parsed_token]
      rfl
  dsimp only
  rw [hfin, t3, t4, parsed_ep, ahead_sess (settle_sess s (parsed m))]
  unfold answer
  cases m.ep.tcp <;> rfl

/-- C135: false for requests with a block option: they are handled although the
device is being reset and they are not secured (engine.c:518-520 goes around the
check of :529-536). -/
theorem during_reset_false :
    ∃ r, inbound (start 5) { exGet with b2 := some 0 } { exEnv with resetting := true } = .ok r ∧ r.ran = true ∧
      r.outs = [piggybacked exGet 69] := ⟨_, rfl, rfl, rfl⟩

/-- C135: a repeated request that is not confirmable is neither handled nor
answered. -/
theorem repeated {s : St} {m : Msg} {e : Env} (he : e.err = none) (hu : m.ep.tcp = false) (h1 : 1 ≤ m.code)
    (h4 : m.code ≤ 4) (h0 : m.typ ≠ 0)
    (hd : Dedup.isDup s.hist ⟨false, m.mid, m.ep.dev, m.ep.peer⟩ = true) :
    ∃ st, inbound s m e = .ok ⟨st, [], false, false⟩ := by
  rw [inbound_request he (fun h => absurd h (by rw [hu]; simp)) h1 h4, parsed_udp hu]
  have : initResponse (settle s m) m = none := by
    unfold initResponse Dedup.receive
    rw [hu, settle_hist, hd]
    have hb : (m.typ == 0) = false := by simpa using h0
    simp [hb]
  have hw : withMethod (settle s m) m e = (⟨settle s m, [], udpPkt 0 0 0, none, false, false⟩, .dup) := by
    unfold withMethod; rw [this]
  rw [hw]
  exact ⟨_, rfl⟩

example : ∃ m : Msg, m.typ ≠ 0 ∧ Dedup.isDup (start 5).hist ⟨false, m.mid, m.ep.dev, m.ep.peer⟩ = true :=
  ⟨{ exGet with typ := 1, mid := 0 }, by decide, by decide⟩

/-- C135: a confirmable request over UDP that nothing hinders is settled by
exactly one message: one acknowledgement or one reset with its message id. -/
theorem settled_once {s : St} {m : Msg} {e : Env} (hi : Inv s) (h : UdpRequest m e) (hc : m.typ = 0)
    (hu : Unhindered e) (ha : e.ans.1 ≠ 0) (hd : e.buf = .dup → m.b2 = none ∨ m.b1.isSome = true) :
    ∃ r, inbound s m e = .ok r ∧ (r.outs.filter (settles m)).length = 1 := by
  obtain ⟨hut, h1, h4, he⟩ := h
  obtain ⟨t1, t2, t3, t4, t5, t6, t7⟩ := hu
  rw [inbound_request he (fun h => absurd h (by rw [hut]; simp)) h1 h4, parsed_udp hut]
  have hi' := settle_inv m hi
  generalize settle s m = s0 at hi'
  have hr : initResponse s0 m = some (s0, udpPkt 2 69 m.mid) := by
    unfold initResponse; rw [hut, hc]; rfl
  rcases served hi' hr t1 with ⟨st, _, k1, k2, k3, _⟩ | ⟨w', r', st, k1, k2, k3, k4, k5, k8, k6, k7, k9, _⟩
  · rcases hd k3 with h | h
    · rw [h] at k2; cases k2
    · rw [k1] at h; cases h
  · rw [k1]
    dsimp only
    rw [k6]
    refine ⟨_, rfl, ?_⟩
    have hclr : w'.clr = false := by
      cases hw : w'.clr with
      | false => rfl
      | true =>
        rcases k4 hw with h | h | ⟨c, h⟩
        · rw [t5] at h; cases h
        · rw [t6] at h; cases h
        · have := (t7 _ h).1; cases this
    have hres : r' ≠ .reset := fun h => ha (k5 h)
    rw [hclr, t3, t4, ahead_udp hut]
    simp only [Bool.not_true, Bool.or_self, Bool.false_eq_true, if_false, List.nil_append]
    have hself : (m.ep == m.ep) = true := by simp
    have hsr : settles m (rst m) = true := by unfold settles rst; simp
    have hsa : settles m (emptyAck m) = true := by unfold settles emptyAck; simp
    cases k3 with
    | same hs ho c hcs hpp =>
      dsimp only at ho hpp
      rw [ho, List.nil_append]
      rcases final_shape (w' := w') (r' := r') (e := e) hut h1 h4 (by rw [hpp]; rfl) (by rw [hpp]; show (2 : Nat) ≠ 3; decide)
        with ⟨_, hx⟩ | ⟨_, _, hx⟩
      · rw [hx]
        show ([rst m].filter (settles m)).length = 1
        rw [List.filter_cons_of_pos hsr]
        rfl
      · rw [hx, hpp]
        show ([piggybacked m c].filter (settles m)).length = 1
        rw [List.filter_cons_of_pos (by unfold settles piggybacked; simp)]
        rfl
    | sep c0 c hcs hs ho hpp =>
      rw [separate_outs c0 hut] at ho
      dsimp only [List.nil_append] at ho
      have hack : ackFirst m e = [emptyAck m] := by unfold ackFirst; rw [if_pos ⟨hc, t2⟩]
      rw [hack] at ho
      have hne : r' ≠ .error := by
        intro h
        rw [k8 h] at ho
        cases ho
      rw [ho]
      rcases final_shape (w' := w') (r' := r') (e := e) hut h1 h4 (by rw [hpp]; rfl) (by rw [hpp]; show (0 : Nat) ≠ 3; decide)
        with ⟨hx0, _⟩ | ⟨_, _, hx⟩
      · rcases hx0 with h | h
        · exact absurd h hne
        · exact absurd h hres
      · rw [hx, hpp]
        show ([emptyAck m, own m 0 c (wire (s0.cnt + 1))].filter (settles m)).length = 1
        rw [List.filter_cons_of_pos hsa, List.filter_cons_of_neg (by unfold settles own; simp)]
        rfl

/-- C135: false if the handler sets no code: the last block of a confirmable
upload is acknowledged and then reset, with the same message id (engine.c:371-374,
:827, :1207). -/
theorem settled_once_false :
    ∃ r, inbound (start 5) { exGet with code := 2, b1 := some false, paylen := 3 } { exEnv with ans := (0, false) } = .ok r
      ∧ r.outs = [emptyAck exGet, rst exGet] := ⟨_, rfl, rfl⟩

/-- C135: what is not a request is never handled by a resource; a confirmable one
is acknowledged by an empty message, and unless a block-wise transfer goes on
nothing else is sent. -/
theorem quiet {s : St} {m : Msg} {e : Env} (he : e.err = none) (hu : m.ep.tcp = false) (hc : m.code = 0 ∨ 4 < m.code)
    (hs : isSignal m.code = true → m.code = 227) (hn : ∀ x, e.cli ≠ .next x) :
    ∃ st, inbound s m e = .ok ⟨st, if m.typ = 0 ∧ e.msgAlloc = true then [emptyAck m] else [], false, false⟩ := by
  rw [inbound_code he (fun h => absurd h (by rw [hu]; simp)) hc hs, parsed_udp hu]
  have hacks : ∀ s', (if m.typ == 0 then sendEmpty s' e m.ep 2 m.mid [] 0 else [])
      = if m.typ = 0 ∧ e.msgAlloc = true then [emptyAck m] else [] := by
    intro s'
    rw [empty_udp hu]
    by_cases h0 : m.typ = 0
    · cases e.msgAlloc <;> simp [h0, emptyAck]
    · simp [h0]
  unfold withCode
  cases hcl : e.cli with
  | none =>
    dsimp only
    rw [result_none _ _ _ rfl, hacks]
    exact ⟨_, rfl⟩
  | cb =>
    dsimp only
    rw [result_none _ _ _ rfl, hacks]
    exact ⟨_, rfl⟩
  | next x => exact absurd hcl (hn x)

example : ∃ r, inbound (start 5) { exGet with code := 69 } { exEnv with cli := .cb } = .ok r ∧ r.outs = [emptyAck exGet] :=
  ⟨_, rfl, rfl⟩

/-- C135: false that an empty confirmable message (a ping of RFC 7252 4.3) gets a
reset: it gets an acknowledgement (engine.c:875-878). -/
theorem ping_false : ∃ r, inbound (start 5) { exGet with code := 0, token := [] } exEnv = .ok r ∧ r.outs = [emptyAck exGet] :=
  ⟨_, rfl, rfl⟩

/-- C135: false that a response nobody waits for is rejected with a reset (RFC
7252 5.3.2): no transaction exists, so the reset prepared at engine.c:1207 is not
sent (:606-609); a confirmable one is even acknowledged.  A server therefore
never learns that its notifications are not wanted. -/
theorem unwanted_false :
    (∃ r, inbound (start 5) { exGet with code := 69 } exEnv = .ok r ∧ r.outs = [emptyAck exGet]) ∧
    (∃ r, inbound (start 5) { exGet with code := 69, typ := 1 } exEnv = .ok r ∧ r.outs = []) :=
  ⟨⟨_, rfl, rfl⟩, ⟨_, rfl, rfl⟩⟩

/-- C135: false that only confirmable and non-confirmable messages carry requests:
a reset or an acknowledgement with a request code is served (engine.c:1066, RFC
7252 4.2, 4.3). -/
theorem type_false :
    (∃ r, inbound (start 5) { exGet with typ := 3 } exEnv = .ok r ∧ r.ran = true ∧ r.outs = [own exGet 1 69 6]) ∧
    (∃ r, inbound (start 5) { exGet with typ := 2 } exEnv = .ok r ∧ r.ran = true ∧ r.outs = [own exGet 1 69 6]) :=
  ⟨⟨_, rfl, rfl, rfl⟩, ⟨_, rfl, rfl, rfl⟩⟩

/-- C135: false that the error sent for a malformed message that is not
confirmable has a message id of its own: it has that of the message
(engine.c:1107-1109). -/
theorem invalid_false :
    ∃ r, inbound (start 5) { exGet with typ := 1 } { exEnv with err := some 128 } = .ok r ∧ r.outs = [own exGet 1 128 7] :=
  ⟨_, rfl, rfl⟩

/-- C135: false that only the peer can settle a transaction: a message of anybody
with the same message id, even a request, ends the retransmission
(engine.c:1136-1140). -/
theorem stranger_false :
    let s : St := { start 5 with txs := [⟨0, 7, { exEp with peer := 2 }⟩], nextId := 1 }
    ∃ r, inbound s exGet exEnv = .ok r ∧ r.st.txs = [] := ⟨_, rfl, rfl⟩

/-- A code that neither asks for something nor is a signal. -/
def Reply (c : Nat) : Prop := (c = 0 ∨ 4 < c) ∧ (c < 225 ∨ 229 < c)

/-- The codes that the other modules give are codes of replies. -/
def Replies (e : Env) : Prop :=
  Reply e.ans.1 ∧ (∀ x, e.hdr = some x → Reply x.1) ∧ (∀ c, e.buf = .last c → Reply c)

theorem source_reply {w : W} {e : Env} {c : Nat} (hr : Replies e) (hw : Reply w.resp.code) (h : Source w e c) : Reply c := by
  rcases h with h | h | h | h | ⟨b, h⟩ | h
  · rw [h]; exact hw
  · rw [h]; exact ⟨by omega, by omega⟩
  · rw [h]; exact ⟨by omega, by omega⟩
  · rw [h]; exact hr.1
  · exact hr.2.1 _ h
  · exact hr.2.2 _ h

theorem outs_reply {s : St} {m : Msg} {e : Env} {r : Res} (hi : Inv s) (h : UdpRequest m e) (hr : Replies e)
    (hk : inbound s m e = .ok r) : ∀ o ∈ r.outs, Reply o.pkt.code ∧ o.pkt.tcp = false := by
  obtain ⟨hu, h1, h4, he⟩ := h
  rw [inbound_request he (fun h => absurd h (by rw [hu]; simp)) h1 h4, parsed_udp hu] at hk
  have hi' := settle_inv m hi
  generalize settle s m = s0 at hi' hk
  have r0 : Reply 0 := ⟨Or.inl rfl, by omega⟩
  cases hini : initResponse s0 m with
  | none =>
    have : withMethod s0 m e = (⟨s0, [], udpPkt 0 0 0, none, false, false⟩, .dup) := by
      unfold withMethod; rw [hini]
    rw [this, result_dup] at hk
    injection hk with hk
    rw [← hk]
    intro o ho; cases ho
  | some x =>
    obtain ⟨s1, p⟩ := x
    have hfr := init_frame hini
    cases ht : e.txAlloc with
    | false =>
      have : withMethod s0 m e = (⟨s1, [], p, none, false, false⟩, .error) := by
        unfold withMethod; rw [hini]; dsimp only; rw [ht]; rfl
      rw [this, result_none _ _ _ rfl] at hk
      injection hk with hk
      rw [← hk]
      intro o ho; cases ho
    | true =>
      rcases served (hfr.inv hi') hini ht with ⟨st, k, _⟩ | ⟨w', r', st, k1, k2, k3, k4, k5, k8, k6, _⟩
      · rw [k] at hk
        injection hk with hk
        rw [← hk]
        intro o ho; cases ho
      · rw [k1] at hk
        dsimp only at hk
        rw [k6] at hk
        injection hk with hk
        have hini2 := init_udp hini hu
        have hp : p.token = [] ∧ p.typ ≠ 3 ∧ p.tcp = false ∧ p.code = 69 := by
          rcases hini2 with ⟨_, _, hp⟩ | ⟨_, _, t, ht, hp⟩ <;> rw [hp]
          · exact ⟨rfl, by show (2 : Nat) ≠ 3; decide, rfl, rfl⟩
          · exact ⟨rfl, by show t ≠ 3; omega, rfl, rfl⟩
        have hp69 : Reply p.code := by rw [hp.2.2.2]; exact ⟨by omega, by omega⟩
        have hw' : Reply w'.resp.code ∧ w'.resp.tcp = false ∧ w'.resp.token = [] ∧ w'.resp.typ ≠ 3
            ∧ ∀ o ∈ w'.outs, Reply o.pkt.code ∧ o.pkt.tcp = false := by
          cases k3 with
          | same hs ho c hc hpp =>
            rw [hpp, ho]
            exact ⟨source_reply hr hp69 hc, hp.2.2.1, hp.1, hp.2.1, fun o h => by cases h⟩
          | sep c0 c hc hs ho hpp =>
            rw [hpp, ho, separate_outs c0 hu]
            refine ⟨source_reply hr hp69 hc, rfl, rfl, by show (0 : Nat) ≠ 3; decide, ?_⟩
            intro o hom
            dsimp only [List.nil_append] at hom
            unfold ackFirst at hom
            split at hom
            · rw [List.mem_singleton.mp hom]
              exact ⟨r0, rfl⟩
            · cases hom
        intro o ho
        rw [← hk] at ho
        rcases List.mem_append.mp ho with ho | ho
        · exact hw'.2.2.2.2 o ho
        · split at ho
          · cases ho
          · rw [ahead_udp hu] at ho
            rw [List.mem_singleton.mp ho]
            rcases final_shape (w' := w') (r' := r') (e := e) hu h1 h4 hw'.2.2.1 hw'.2.2.2.1 with ⟨_, hx⟩ | ⟨_, _, hx⟩
            · dsimp only
              rw [hx]
              exact ⟨r0, rfl⟩
            · dsimp only
              rw [hx]
              exact ⟨hw'.1, hw'.2.1⟩

/-- C135: exchanges end.  Whatever an engine sends because of a request over UDP
is, for the engine that gets it, no reason to send more than one empty
acknowledgement; and an empty acknowledgement is no reason to send anything. -/
theorem conversation_ends {s : St} {m : Msg} {e : Env} {r : Res} (hi : Inv s) (h : UdpRequest m e) (hr : Replies e)
    (hk : inbound s m e = .ok r) (o : Sent) (ho : o ∈ r.outs) (s2 s3 : St) (ep ep3 : Ep) (e2 e3 : Env)
    (hu2 : ep.tcp = false) (hu3 : ep3.tcp = false) (he2 : e2.err = none) (he3 : e3.err = none)
    (hn2 : ∀ x, e2.cli ≠ .next x) (hn3 : ∀ x, e3.cli ≠ .next x) :
    ∃ r2, inbound s2 (delivered o ep) e2 = .ok r2 ∧ r2.ran = false ∧
      (r2.outs = [] ∨ (r2.outs = [emptyAck (delivered o ep)] ∧
        ∃ r3, inbound s3 (delivered (emptyAck (delivered o ep)) ep3) e3 = .ok r3 ∧ r3.outs = [] ∧ r3.ran = false)) := by
  have hc := (outs_reply hi h hr hk o ho).1
  obtain ⟨st, hq⟩ := quiet (s := s2) (m := delivered o ep) he2 hu2 hc.1
    (fun hs => by
      unfold isSignal at hs
      have : 225 ≤ o.pkt.code ∧ o.pkt.code ≤ 229 := by
        have h := Bool.and_eq_true_iff.mp hs
        exact ⟨of_decide_eq_true h.1, of_decide_eq_true h.2⟩
      have := hc.2
      omega) hn2
  refine ⟨_, hq, rfl, ?_⟩
  dsimp only
  split
  · right
    refine ⟨rfl, ?_⟩
    obtain ⟨st3, hq3⟩ := quiet (s := s3) (m := delivered (emptyAck (delivered o ep)) ep3) he3 hu3 (Or.inl rfl)
      (fun hs => by cases hs) hn3
    exact ⟨_, hq3, rfl, rfl⟩
  · exact Or.inl rfl

example : Replies exEnv := ⟨⟨by decide, by decide⟩, (fun _ h => by cases h), (fun _ h => by cases h)⟩

end Verif.Engine
