import Verif.Engine.Lemmas

namespace Verif.Engine

theorem withToken_req {m : Msg} (e : Env) {p : Pkt} (h1 : 1 ≤ m.code) (h4 : m.code ≤ 4) (ht : p.token = [])
    (h3 : p.typ ≠ 3) : withToken m e p = { p with token := m.token } := by
  unfold withToken
  split
  · rename_i h
    rcases Bool.or_eq_true_iff.mp h with h | h
    · exact absurd (eq_of_beq h) h3
    · rw [List.isEmpty_iff.mp h]
      cases p
      dsimp only at ht
      rw [ht]
  · rw [if_pos (by simp; omega)]

theorem withToken_rst (m : Msg) (e : Env) {p : Pkt} (h3 : p.typ = 3) : withToken m e p = p := by
  unfold withToken
  rw [if_pos (by rw [h3]; rfl)]

theorem settle_hist (s : St) (m : Msg) : (settle s m).hist = s.hist := by
  unfold settle clear; split
  · rfl
  · split <;> rfl

theorem settle_cnt (s : St) (m : Msg) : (settle s m).cnt = s.cnt := by
  unfold settle clear; split
  · rfl
  · split <;> rfl

theorem settle_inv {s : St} (m : Msg) (hi : Inv s) : Inv (settle s m) := (frame_settle s m).inv hi

/-- The last message of the answer to a request over UDP. -/
theorem final_shape {w' : W} {r' : Ret} {m : Msg} {e : Env} (hu : m.ep.tcp = false) (h1 : 1 ≤ m.code)
    (h4 : m.code ≤ 4) (htok : w'.resp.token = []) (ht : w'.resp.typ ≠ 3) :
    ((r' = .error ∨ r' = .reset) ∧ withToken m e (final w' r' m) = udpPkt 3 0 m.mid)
    ∨ (r' ≠ .error ∧ r' ≠ .reset ∧ withToken m e (final w' r' m) = { w'.resp with token := m.token }) := by
  unfold final
  rw [hu]
  cases r'
  all_goals first
    | (left; exact ⟨by simp, withToken_rst m e rfl⟩)
    | (right; exact ⟨by simp, by simp, withToken_req e h1 h4 htok ht⟩)


/-- The state of the history after a request that was let through. -/
theorem init_some {s : St} {m : Msg}
    (hf : m.ep.tcp = false → m.typ ≠ 0 → Dedup.isDup s.hist ⟨false, m.mid, m.ep.dev, m.ep.peer⟩ = false) :
    ∃ s1, initResponse s m = some (s1, if m.ep.tcp then tcpPkt 69 else if m.typ == 0 then udpPkt 2 69 m.mid
        else udpPkt (if m.res then 0 else 1) 69 (wire (s.cnt + 1))) := by
  unfold initResponse
  cases hu : m.ep.tcp
  · by_cases h0 : m.typ = 0
    · simp [h0]
    · simp only [Bool.false_eq_true, if_false]
      have hb : (m.typ == 0) = false := by simpa using h0
      rw [hb]
      simp only [Bool.false_eq_true, if_false]
      have : (Dedup.receive s.hist ⟨false, m.mid, m.ep.dev, m.ep.peer⟩).2 = true := by
        unfold Dedup.receive
        rw [hf hu h0]
        rfl
      rw [this]
      exact ⟨_, rfl⟩
  · exact ⟨s, by simp⟩

theorem settle_sess (s : St) (m : Msg) : (settle s m).sess = s.sess := (frame_settle s m).sess

/-- A request whose transaction was made and that is served with `w'`. -/
theorem serve_result {s s1 : St} {m : Msg} {e : Env} {p : Pkt} {w' : W} {r' : Ret} (hi : Inv s)
    (hr : initResponse s m = some (s1, p)) (ht : e.txAlloc = true)
    (hw : serve ⟨(newTx s1 p.mid m.ep).1, [], p, some (newTx s1 p.mid m.ep).2, false, false⟩ m e = (w', r'))
    (hd : r' ≠ .dup) :
    ∃ st, result (withMethod s m e).1 (withMethod s m e).2 m e
        = .ok ⟨st, w'.outs ++ (if w'.clr || !e.ser || !e.running then []
            else ahead s m.ep e ++ [⟨m.ep, withToken m e (final w' r' m)⟩]), w'.ran, false⟩ := by
  have hwm : withMethod s m e = (w', r') := by
    unfold withMethod
    rw [hr]
    dsimp only
    rw [if_pos ht]
    exact hw
  have hfr := init_frame hr
  rcases serve_cases ⟨(newTx s1 p.mid m.ep).1, [], p, some (newTx s1 p.mid m.ep).2, false, false⟩ m e rfl with h | h
  · rw [hw] at h
    exact absurd h.1 hd
  · obtain ⟨h1, h2, h3, _⟩ := h
    rw [hw] at h1 h2 h3
    obtain ⟨st, q, _⟩ := result_own (r := r') e hd (h2.own h3 ⟨_, _, rfl, find_new (hfr.inv hi) p.mid m.ep, rfl⟩)
    have hf : Frame s w'.st := (hfr.trans (frame_new s1 p.mid m.ep)).trans h2.frame
    rw [ahead_sess hf.sess] at q
    rw [hwm]
    exact ⟨st, q⟩

end Verif.Engine
