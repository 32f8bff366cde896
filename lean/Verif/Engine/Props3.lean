/-
C135, continued: uploads in blocks, and requests that come again.
-/
import Verif.Engine.Props2

namespace Verif.Engine

/-! Lemmas: what keeps the history of message ids. -/

theorem clear_hist (s : St) (t : Option Nat) : (clear s t).hist = s.hist := by cases t <;> rfl

theorem sendTx_hist (s : St) (e : Env) (t : Tx) (p : Pkt) : (sendTx s e t p).1.hist = s.hist := by
  rcases (sendTx_cases s e t p).2 with h | h <;> rw [h]
  exact clear_hist _ _

theorem sendResponse_hist {s : St} {m : Msg} {e : Env} {clr : Bool} {tid : Option Nat} {p : Pkt} {x : St × List Sent}
    (h : sendResponse s m e clr tid p = .ok x) : x.1.hist = s.hist := by
  unfold sendResponse at h
  split at h
  · split at h
    · injection h with h; rw [← h]
    · split at h
      · injection h with h; rw [← h]; exact clear_hist _ _
      · cases h
  · split at h
    · injection h with h; rw [← h]
    · split at h
      · cases h
      · split at h
        · injection h with h; rw [← h]; exact sendTx_hist _ _ _ _
        · injection h with h; rw [← h]; exact clear_hist _ _

theorem payload_hist (w : W) (m : Msg) (e : Env) : (payload w m e).1.st.hist = w.st.hist := by
  unfold payload block1 block2 plain separate
  dsimp only
  repeat' split
  all_goals first | rfl | exact clear_hist _ _

theorem handled_hist (x : W × Ret) (e : Env) : (handled x e).1.st.hist = x.1.st.hist := by
  unfold handled handler
  dsimp only
  repeat' split
  all_goals rfl

theorem serve_hist (w : W) (m : Msg) (e : Env) : (serve w m e).1.st.hist = w.st.hist := by
  unfold serve
  split
  · split
    · rfl
    · rw [handled_hist, payload_hist]
  · rw [handled_hist, payload_hist]

theorem result_hist {w : W} {r : Ret} {m : Msg} {e : Env} {x : Res} (h : result w r m e = .ok x) : x.st.hist = w.st.hist := by
  unfold result at h
  split at h
  · injection h with h; rw [← h]
  · split at h
    · rename_i y hy
      injection h with h; rw [← h]
      have := sendResponse_hist hy
      exact this
    · cases h


/-- C135: a request with a part of its payload that cannot be stored is not
handled: it gets a reset. -/
theorem upload_refused {s : St} {m : Msg} {e : Env} {more : Bool} (hi : Inv s) (he : e.err = none) (htcp : m.ep.tcp = false)
    (hc : m.code = 2 ∨ m.code = 3) (hb1 : m.b1 = some more) (hu : Unhindered e) (hh : e.hdr = none)
    (hs : e.store = false) (hn : New s m) :
    ∃ st, inbound s m e = .ok ⟨st, [rst m], false, false⟩ := by
  obtain ⟨t1, t2, t3, t4, t5, t6, t7⟩ := hu
  rw [inbound_request he (fun h => absurd h (by rw [htcp]; simp)) (by omega) (by omega)]
  obtain ⟨s1, p, hini, htok, htyp, hans⟩ := init_answer hn
  rw [parsed_udp htcp] at hini ⊢
  have hw : serve ⟨(newTx s1 p.mid m.ep).1, [], p, some (newTx s1 p.mid m.ep).2, false, false⟩ m e
      = (⟨(newTx s1 p.mid m.ep).1, [], p, some (newTx s1 p.mid m.ep).2, false, false⟩, .error) := by
    unfold serve payload
    rw [hh, hb1]
    dsimp only
    have : (m.code == 2 || m.code == 3) = true := by rcases hc with h | h <;> simp [h]
    rw [if_pos this]
    unfold block1
    rw [hs]
    rfl
  obtain ⟨st, hq⟩ := serve_result (settle_inv _ hi) hini t1 hw (by simp)
  rw [hq]
  refine ⟨st, ?_⟩
  dsimp only
  rw [t3, t4, ahead_udp htcp]
  unfold final
  rw [htcp]
  simp only [beq_self_eq_true, Bool.true_or, if_true, Bool.false_eq_true, if_false]
  rw [withToken_rst _ _ rfl]
  rfl

/-- C135: a part of a payload that is stored, but not the last one, is answered by
2.31 and the handler is not called. -/
theorem upload_continues {s : St} {m : Msg} {e : Env} (hi : Inv s) (he : e.err = none) (htcp : m.ep.tcp = false)
    (hc : m.code = 2 ∨ m.code = 3) (hb1 : m.b1 = some true) (hu : Unhindered e) (hh : e.hdr = none)
    (hs : e.store = true) (hn : New s m) :
    ∃ st, inbound s m e = .ok ⟨st, [answer m s.cnt 95], false, false⟩ := by
  obtain ⟨t1, t2, t3, t4, t5, t6, t7⟩ := hu
  rw [inbound_request he (fun h => absurd h (by rw [htcp]; simp)) (by omega) (by omega)]
  obtain ⟨s1, p, hini, htok, htyp, hans⟩ := init_answer hn
  rw [parsed_udp htcp] at hini ⊢
  have hw : serve ⟨(newTx s1 p.mid m.ep).1, [], p, some (newTx s1 p.mid m.ep).2, false, false⟩ m e
      = (⟨(newTx s1 p.mid m.ep).1, [], { p with code := 95 }, some (newTx s1 p.mid m.ep).2, false, false⟩, .success) := by
    unfold serve payload
    rw [hh, hb1]
    dsimp only
    have : (m.code == 2 || m.code == 3) = true := by rcases hc with h | h <;> simp [h]
    rw [if_pos this]
    unfold block1
    rw [hs]
    rfl
  obtain ⟨st, hq⟩ := serve_result (settle_inv _ hi) hini t1 hw (by simp)
  rw [hq]
  refine ⟨st, ?_⟩
  dsimp only
  rw [t3, t4, ahead_udp htcp]
  have hfin : final ⟨(newTx s1 p.mid m.ep).1, [], { p with code := 95 }, some (newTx s1 p.mid m.ep).2, false, false⟩
      .success m = { p with code := 95 } := rfl
  rw [hfin, withToken_req (m := m) (p := { p with code := 95 }) e (by omega) (by omega) htok htyp, hans]
  rfl

/-- C135: when the last part of the payload of a confirmable request is stored, it
is acknowledged, the handler is called once, and its answer goes in a confirmable
message with a message id of its own. -/
theorem upload_ends {s : St} {m : Msg} {e : Env} (hi : Inv s) (he : e.err = none) (htcp : m.ep.tcp = false)
    (hc : m.code = 2 ∨ m.code = 3) (hb1 : m.b1 = some false) (hu : Unhindered e) (hh : e.hdr = none)
    (hs : e.store = true) (ha : e.ans.1 ≠ 0) (h0 : m.typ = 0) :
    ∃ st, inbound s m e = .ok ⟨st, [emptyAck m, own m 0 e.ans.1 (wire (s.cnt + 1))], true, false⟩ := by
  obtain ⟨t1, t2, t3, t4, t5, t6, t7⟩ := hu
  rw [inbound_request he (fun h => absurd h (by rw [htcp]; simp)) (by omega) (by omega), parsed_udp htcp]
  have hini : initResponse (settle s m) m = some (settle s m, udpPkt 2 69 m.mid) := by
    unfold initResponse
    rw [htcp, h0]
    rfl
  have hout : sendEmpty (newTx (settle s m) m.mid m.ep).1 e m.ep 2 m.mid [] 0 = [emptyAck m] := by
    rw [empty_udp (m := m) htcp, t2]
    rfl
  have hw : serve ⟨(newTx (settle s m) m.mid m.ep).1, [], udpPkt 2 69 m.mid, some (newTx (settle s m) m.mid m.ep).2, false, false⟩ m e
      = ({ separate ⟨(newTx (settle s m) m.mid m.ep).1, [], udpPkt 2 69 m.mid, some (newTx (settle s m) m.mid m.ep).2, false, false⟩ m e 69 with
          resp := udpPkt 0 e.ans.1 (wire (s.cnt + 1)), ran := true }, .success) := by
    unfold serve payload
    rw [hh, hb1]
    dsimp only
    have : (m.code == 2 || m.code == 3) = true := by rcases hc with h | h <;> simp [h]
    rw [if_pos this]
    unfold block1
    rw [hs]
    unfold handled handler
    simp only [Bool.not_true, Bool.false_eq_true, if_false]
    rw [if_pos ha, t6]
    unfold separate newTx
    simp only [settle_cnt]
    rfl
  obtain ⟨st, hq⟩ := serve_result (settle_inv _ hi) hini t1 hw (by simp)
  rw [hq]
  refine ⟨st, ?_⟩
  have hsep : (separate ⟨(newTx (settle s m) m.mid m.ep).1, [], udpPkt 2 69 m.mid, some (newTx (settle s m) m.mid m.ep).2, false, false⟩ m e 69).outs
      = [emptyAck m] := by
    unfold separate
    dsimp only
    rw [h0, hout]
    rfl
  have hclr : (separate ⟨(newTx (settle s m) m.mid m.ep).1, [], udpPkt 2 69 m.mid, some (newTx (settle s m) m.mid m.ep).2, false, false⟩ m e 69).clr
      = false := rfl
  dsimp only
  rw [hsep, hclr, t3, t4, ahead_udp htcp]
  have hfin : ∀ w : W, final w .success m = w.resp := fun _ => rfl
  rw [hfin]
  dsimp only
  rw [withToken_req (m := m) (p := udpPkt 0 e.ans.1 (wire (s.cnt + 1))) e (by omega) (by omega) rfl (by show (0 : Nat) ≠ 3; decide)]
  rfl

/-- An upload for the examples. -/
def exPut (more : Bool) : Msg := { exGet with code := 3, b1 := some more, paylen := 4 }

example : Unhindered { exEnv with store := false } ∧ New (start 5) (exPut true) ∧ exEnv.store = true ∧
    inbound (start 5) (exPut false) { exEnv with store := false } ≠ .ub := by
  refine ⟨⟨rfl, rfl, rfl, rfl, rfl, rfl, fun x h => by cases h⟩, fun _ h => absurd rfl h, rfl, by decide⟩

/-- What one message or event may do to the history of message ids. -/
def Moves (a b : Dedup.St) : Prop := b = a ∨ ∃ x, b = (Dedup.receive a x).1

theorem init_moves {s s1 : St} {m : Msg} {p : Pkt} (h : initResponse s m = some (s1, p)) : Moves s.hist s1.hist := by
  unfold initResponse at h
  split at h
  · injection h with h; injection h with h _; exact Or.inl (by rw [← h])
  · split at h
    · injection h with h; injection h with h _; exact Or.inl (by rw [← h])
    · dsimp only at h
      split at h
      · injection h with h; injection h with h _; exact Or.inr ⟨_, by rw [← h]⟩
      · cases h

theorem receive_moves (s : St) (m : Msg) (e : Env) : Moves s.hist (receive s m e).1.st.hist := by
  unfold receive
  split
  · unfold withMethod
    split
    · exact Or.inl rfl
    · rename_i s1 p h
      split
      · rw [serve_hist]; exact (init_moves h :)
      · exact init_moves h
  · unfold withCode
    dsimp only
    split
    · exact Or.inl rfl
    · exact Or.inl rfl
    · split <;> exact Or.inl rfl

theorem main_moves {s : St} {m : Msg} {e : Env} {x : Res} (h : main s m e = .ok x) : Moves s.hist x.st.hist := by
  unfold main at h
  split at h
  · unfold stale at h
    split at h
    · cases h
    · split at h
      · rename_i y hy
        injection h with h; rw [← h]; exact Or.inl (sendResponse_hist hy)
      · cases h
  · rw [result_hist h]; exact receive_moves s m e

theorem signal_hist {s : St} {m : Msg} {e : Env} {r : Res} (h : signal s m e = some r) : r.st.hist = s.hist := by
  have hset : ∀ c, (setCsm s m.ep c).hist = s.hist := fun c => by unfold setCsm; split <;> rfl
  have hclose : (closeSession s m.ep).hist = s.hist := by unfold closeSession; split <;> rfl
  unfold signal at h
  repeat' split at h
  all_goals first
    | (cases h; done)
    | (injection h with h; rw [← h]; first | done | rfl | exact hset _ | exact hclose)

theorem inbound_moves {s : St} {m : Msg} {e : Env} {r : Res} (h : inbound s m e = .ok r) : Moves s.hist r.st.hist := by
  unfold inbound at h
  split at h
  · injection h with h
    rw [← h]
    unfold invalid closeSession
    repeat' split
    all_goals exact Or.inl rfl
  · dsimp only at h
    have hm : ∀ {x : Res}, main (settle s (parsed m)) (parsed m) e = .ok x → Moves s.hist x.st.hist := fun hx => by
      have := main_moves hx
      rw [settle_hist] at this
      exact this
    split at h
    · split at h
      · rename_i r' hr
        injection h with h
        rw [← h, signal_hist hr, settle_hist]
        exact Or.inl rfl
      · exact hm h
    · exact hm h

theorem step_moves {s : St} {ev : Ev} {x : St × List Sent} (h : step s ev = .ok x) : Moves s.hist x.1.hist := by
  cases ev with
  | msg m e =>
    unfold step at h
    dsimp only at h
    split at h
    · rename_i r hr
      injection h with h
      rw [← h]
      exact inbound_moves hr
    · cases h
  | app ep con code token e =>
    injection h with h
    rw [← h]
    left
    unfold app
    dsimp only
    split
    · rw [sendTx_hist]; rfl
    · rfl
  | accept p => injection h with h; rw [← h]; exact Or.inl rfl
  | connect p => injection h with h; rw [← h]; exact Or.inl rfl
  | ended p => injection h with h; rw [← h]; exact Or.inl rfl
  | expire i => injection h with h; rw [← h]; exact Or.inl rfl

/-- The history has its size. -/
def Sized (h : Dedup.St) : Prop := h.ring.length = 25 ∧ h.idx < 25

/-- An entry was made at most `a` entries ago. -/
def Has (h : Dedup.St) (x : Nat × Nat) (a : Nat) : Prop :=
  ∃ j, h.ring[j]? = some x ∧ j < 25 ∧ (h.idx + 24 - j) % 25 ≤ a

theorem sized_moves {a b : Dedup.St} (h : Sized a) (hm : Moves a b) : Sized b := by
  rcases hm with hm | ⟨x, hm⟩
  · rw [hm]; exact h
  · rw [hm]
    unfold Dedup.receive
    split
    · exact h
    · split
      · exact h
      · exact ⟨by simpa using h.1, Nat.mod_lt _ (by decide)⟩

theorem has_moves {a b : Dedup.St} {x : Nat × Nat} {n : Nat} (h : Sized a) (hx : Has a x n) (hn : n < 24)
    (hm : Moves a b) : Has b x (n + 1) := by
  obtain ⟨j, h1, h2, h3⟩ := hx
  have hi := h.2
  have keep : Has a x (n + 1) := ⟨j, h1, h2, Nat.le_succ_of_le h3⟩
  rcases hm with hm | ⟨y, hm⟩
  · rw [hm]; exact keep
  · rw [hm]
    unfold Dedup.receive
    split
    · exact keep
    · split
      · exact keep
      · refine ⟨j, ?_, h2, ?_⟩
        · rw [List.getElem?_set_ne (by omega)]
          exact h1
        · show ((a.idx + 1) % 25 + 24 - j) % 25 ≤ n + 1
          omega

theorem has_dup {h : Dedup.St} {mid dev n : Nat} (hx : Has h (mid, dev) n) (peer : Nat) :
    Dedup.isDup h ⟨false, mid, dev, peer⟩ = true := by
  obtain ⟨j, h1, _⟩ := hx
  unfold Dedup.isDup
  rw [List.any_eq_true]
  exact ⟨_, List.mem_of_getElem? h1, by simp⟩

theorem run_has : ∀ (evs : List Ev) {s s' : St} {outs : List Sent} {x : Nat × Nat} {n : Nat},
    Sized s.hist → Has s.hist x n → n + evs.length ≤ 24 → run s evs = .ok (s', outs) → Has s'.hist x 24 := by
  intro evs
  induction evs with
  | nil =>
    intro s s' outs x n _ hx hn hr
    injection hr with hr
    injection hr with hr _
    rw [← hr]
    obtain ⟨j, h1, h2, h3⟩ := hx
    exact ⟨j, h1, h2, by omega⟩
  | cons ev evs ih =>
    intro s s' outs x n hs hx hn hr
    unfold run at hr
    split at hr
    · cases hr
    · rename_i y hy
      split at hr
      · rename_i z hz
        injection hr with hr
        injection hr with hr _
        rw [List.length_cons] at hn
        have := ih (sized_moves hs (step_moves hy)) (has_moves hs hx (by omega) (step_moves hy)) (by omega) hz
        rw [← hr]; exact this
      · cases hr

theorem run_sized : ∀ (evs : List Ev) {s s' : St} {outs : List Sent}, Sized s.hist → run s evs = .ok (s', outs) → Sized s'.hist := by
  intro evs
  induction evs with
  | nil => intro s s' outs hs hr; injection hr with hr; injection hr with hr _; rw [← hr]; exact hs
  | cons ev evs ih =>
    intro s s' outs hs hr
    unfold run at hr
    split at hr
    · cases hr
    · rename_i y hy
      split at hr
      · rename_i z hz
        injection hr with hr
        injection hr with hr _
        rw [← hr]
        exact ih (sized_moves hs (step_moves hy)) hz
      · cases hr

theorem now_has {s : St} {m : Msg} {e : Env} {r : Res} (hs : Sized s.hist) (he : e.err = none)
    (htcp : m.ep.tcp = false) (h1 : 1 ≤ m.code) (h4 : m.code ≤ 4) (h0 : m.typ ≠ 0) (h : inbound s m e = .ok r)
    (hd : Dedup.isDup s.hist ⟨false, m.mid, m.ep.dev, m.ep.peer⟩ = false) : Has r.st.hist (m.mid, m.ep.dev) 0 := by
  rw [inbound_request he (fun h => absurd h (by rw [htcp]; simp)) h1 h4, parsed_udp htcp] at h
  rw [result_hist h]
  have hb : (m.typ == 0) = false := by simpa using h0
  unfold withMethod
  have : ∃ s1 p, initResponse (settle s m) m = some (s1, p) ∧
      s1.hist = (Dedup.receive s.hist ⟨false, m.mid, m.ep.dev, m.ep.peer⟩).1 := by
    unfold initResponse
    have h2 : (Dedup.receive s.hist ⟨false, m.mid, m.ep.dev, m.ep.peer⟩).2 = true := by
      unfold Dedup.receive; rw [hd]; rfl
    rw [htcp, settle_hist]
    dsimp only
    rw [h2]
    simp only [hb, Bool.false_eq_true, if_false, if_true]
    exact ⟨_, _, rfl, rfl⟩
  obtain ⟨s1, p, hini, hh⟩ := this
  rw [hini]
  dsimp only
  have hi := hs.2
  have hdup : Has (Dedup.receive s.hist ⟨false, m.mid, m.ep.dev, m.ep.peer⟩).1 (m.mid, m.ep.dev) 0 := by
    unfold Dedup.receive
    rw [hd]
    simp only [Bool.false_eq_true, if_false]
    refine ⟨s.hist.idx, ?_, hi, ?_⟩
    · rw [List.getElem?_set_self (by rw [hs.1]; exact hi)]
    · show ((s.hist.idx + 1) % 25 + 24 - s.hist.idx) % 25 ≤ 0
      omega
  split
  · rw [serve_hist]
    show Has s1.hist _ _
    rw [hh]; exact hdup
  · show Has s1.hist _ _
    rw [hh]; exact hdup

/-- C135: in any history, once a non-confirmable request was taken up, however that
ended, the same request coming again within the next 24 events is neither handled
nor answered. -/
theorem not_twice {seed : Nat} {past evs : List Ev} {s s' : St} {o o' : List Sent} {m : Msg} {e e' : Env} {r : Res}
    (hp : run (start seed) past = .ok (s, o)) (he : e.err = none) (he' : e'.err = none)
    (htcp : m.ep.tcp = false) (h1 : 1 ≤ m.code) (h4 : m.code ≤ 4) (h0 : m.typ ≠ 0) (hn : New s m)
    (h : inbound s m e = .ok r) (hl : evs.length ≤ 24) (hr : run r.st evs = .ok (s', o')) :
    ∃ st, inbound s' m e' = .ok ⟨st, [], false, false⟩ := by
  have hs : Sized s.hist := run_sized past (s := start seed) ⟨by show Dedup.init.ring.length = 25; decide, by show Dedup.init.idx < 25; decide⟩ hp
  exact repeated he' htcp h1 h4 h0 (has_dup (run_has evs (sized_moves hs (inbound_moves h))
    (now_has hs he htcp h1 h4 h0 h (hn htcp h0)) (by omega) hr) _)

example : ∃ r s' o', inbound (start 5) { exGet with typ := 1, mid := 77 } exEnv = .ok r ∧ r.ran = true ∧
    New (start 5) { exGet with typ := 1, mid := 77 } ∧
    run r.st [.msg { exGet with typ := 1, mid := 78 } exEnv, .msg { exGet with typ := 1, mid := 79 } exEnv] = .ok (s', o') ∧
    o'.length = 2 := ⟨_, _, _, rfl, rfl, fun _ _ => by decide, rfl, rfl⟩

end Verif.Engine
