import Verif.Engine.Runs

/-! Lemmas: which events change the sessions. -/

namespace Verif.Engine

/-- The state of the session with a peer, if there is one. -/
def state (s : St) (p : Nat) : Option Csm := (s.sess.find? fun x => x.1 == p).map (·.2)

theorem csm_state (s : St) (ep : Ep) : csm s ep = if ep.tcp then (state s ep.peer).getD .none else .none := rfl

theorem state_congr {s s' : St} (h : s'.sess = s.sess) (p : Nat) : state s' p = state s p := by unfold state; rw [h]

theorem clear_sess (s : St) (t : Option Nat) : (clear s t).sess = s.sess := by cases t <;> rfl

theorem sendTx_sess (s : St) (e : Env) (t : Tx) (p : Pkt) : (sendTx s e t p).1.sess = s.sess := by
  rcases (sendTx_cases s e t p).2 with h | h <;> rw [h]
  exact clear_sess _ _

theorem sendResponse_sess {s : St} {m : Msg} {e : Env} {clr : Bool} {tid : Option Nat} {p : Pkt} {x : St × List Sent}
    (h : sendResponse s m e clr tid p = .ok x) : x.1.sess = s.sess := by
  unfold sendResponse at h
  split at h
  · split at h
    · injection h with h; rw [← h]
    · split at h
      · injection h with h; rw [← h]; exact clear_sess _ _
      · cases h
  · split at h
    · injection h with h; rw [← h]
    · split at h
      · cases h
      · split at h
        · injection h with h; rw [← h]; exact sendTx_sess _ _ _ _
        · injection h with h; rw [← h]; exact clear_sess _ _

theorem payload_sess (w : W) (m : Msg) (e : Env) : (payload w m e).1.st.sess = w.st.sess := by
  unfold payload block1 block2 plain separate
  dsimp only
  repeat' split
  all_goals first | rfl | exact clear_sess _ _

theorem handled_sess (x : W × Ret) (e : Env) : (handled x e).1.st.sess = x.1.st.sess := by
  unfold handled handler
  dsimp only
  repeat' split
  all_goals rfl

theorem serve_sess (w : W) (m : Msg) (e : Env) : (serve w m e).1.st.sess = w.st.sess := by
  unfold serve
  split
  · split
    · rfl
    · rw [handled_sess, payload_sess]
  · rw [handled_sess, payload_sess]

theorem init_sess {s s1 : St} {m : Msg} {p : Pkt} (h : initResponse s m = some (s1, p)) : s1.sess = s.sess := by
  unfold initResponse at h
  split at h
  · injection h with h; injection h with h _; rw [← h]
  · split at h
    · injection h with h; injection h with h _; rw [← h]
    · dsimp only at h
      split at h
      · injection h with h; injection h with h _; rw [← h]
      · cases h

theorem receive_sess (s : St) (m : Msg) (e : Env) : (receive s m e).1.st.sess = s.sess := by
  unfold receive
  split
  · unfold withMethod
    split
    · rfl
    · rename_i s1 p h
      split
      · rw [serve_sess]; exact (init_sess h :)
      · exact init_sess h
  · unfold withCode
    dsimp only
    split
    · rfl
    · rfl
    · split <;> rfl

theorem result_sess {w : W} {r : Ret} {m : Msg} {e : Env} {x : Res} (h : result w r m e = .ok x) : x.st.sess = w.st.sess := by
  unfold result at h
  split at h
  · injection h with h; rw [← h]
  · split at h
    · rename_i y hy
      injection h with h; rw [← h]
      have := sendResponse_sess hy
      exact this
    · cases h

theorem main_sess {s : St} {m : Msg} {e : Env} {x : Res} (h : main s m e = .ok x) : x.st.sess = s.sess := by
  unfold main at h
  split at h
  · unfold stale at h
    split at h
    · cases h
    · split at h
      · rename_i y hy
        injection h with h; rw [← h]; exact sendResponse_sess hy
      · cases h
  · rw [result_sess h, receive_sess]

theorem app_sess (s : St) (ep : Ep) (con : Bool) (code : Nat) (token : Bytes) (e : Env) : (app s ep con code token e).1.sess = s.sess := by
  unfold app
  dsimp only
  split
  · rw [sendTx_sess]; rfl
  · rfl

theorem find_map (l : List (Nat × Csm)) (q : Nat) (c : Csm) (p : Nat) :
    ((l.map fun x => if x.1 == q then (x.1, c) else x).find? fun x => x.1 == p).map (·.2) =
      if p = q then ((l.find? fun x => x.1 == p).map (·.2)).map (fun _ => c) else (l.find? fun x => x.1 == p).map (·.2) := by
  induction l with
  | nil => simp
  | cons a r ih =>
    rw [List.map_cons, List.find?_cons, List.find?_cons]
    by_cases h1 : a.1 = q
    · rw [if_pos (by simp [h1])]
      by_cases h2 : a.1 = p
      · simp [h2, show p = q by omega]
      · rw [show (a.1 == p) = false by simp [h2]]
        exact ih
    · rw [if_neg (by simp [h1])]
      by_cases h2 : a.1 = p
      · simp [h2, show ¬p = q by omega]
      · rw [show (a.1 == p) = false by simp [h2]]
        exact ih

theorem find_other (l : List (Nat × Csm)) {p q : Nat} (h : p ≠ q) :
    (l.filter fun x => x.1 != q).find? (fun x => x.1 == p) = l.find? fun x => x.1 == p := by
  induction l with
  | nil => rfl
  | cons a r ih =>
    rw [List.filter_cons, List.find?_cons]
    by_cases h1 : a.1 = q
    · rw [if_neg (by simp [h1]), show (a.1 == p) = false by simp; omega]
      exact ih
    · rw [if_pos (by simp [h1]), List.find?_cons, ih]

theorem find_gone (l : List (Nat × Csm)) (p : Nat) : (l.filter fun x => x.1 != p).find? (fun x => x.1 == p) = none := by
  rw [List.find?_eq_none]
  intro x hx
  have := (List.mem_filter.1 hx).2
  simpa using this

theorem state_set (s : St) (ep : Ep) (c : Csm) (p : Nat) :
    state (setCsm s ep c) p = if ep.tcp = true ∧ p = ep.peer then (state s p).map (fun _ => c) else state s p := by
  unfold setCsm
  cases ep.tcp with
  | false => simp
  | true =>
    rw [if_pos rfl]
    unfold state
    rw [find_map]
    simp

theorem state_close (s : St) (ep : Ep) {p : Nat} (h : ¬(ep.tcp = true ∧ p = ep.peer)) : state (closeSession s ep) p = state s p := by
  unfold closeSession
  cases ht : ep.tcp with
  | false => rfl
  | true =>
    rw [if_pos rfl]
    unfold state
    rw [find_other _ (fun hh => h ⟨ht, hh⟩)]

theorem state_closed (s : St) (ep : Ep) (h : ep.tcp = true) : state (closeSession s ep) ep.peer = none := by
  unfold closeSession state
  rw [if_pos h, find_gone]
  rfl

end Verif.Engine
