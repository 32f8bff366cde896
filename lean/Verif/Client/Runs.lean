import Verif.Client.Kept
/-! Runs of the machine, for the properties and the witnesses. -/
namespace Verif.Client
open Verif

theorem steps_reach {beh c c'} (h : Reach beh c) (hs : Steps beh c c') : Reach beh c' := by
  induction hs with
  | refl => exact h
  | step _ hn ih => exact .step ih hn

theorem steps_trans {beh a b c} (h : Steps beh a b) (k : Steps beh b c) : Steps beh a c := by
  induction k with
  | refl => exact h
  | step _ hn ih => exact .step ih hn

theorem next_log {beh c c'} (hn : next beh c = .ok c') : ∃ ext, c'.st.log = c.st.log ++ ext := by
  have same : ∀ {s : St}, s.log = c.st.log → ∃ ext, s.log = c.st.log ++ ext := fun e => ⟨[], by rw [e, List.append_nil]⟩
  unfold Client.next at hn
  split at hn
  · cases hn; exact same rfl
  · cases hn; exact same rfl
  · obtain ⟨r, h1, h2⟩ := Out.bind_ok hn
    cases h2
    obtain ⟨ext, e, _⟩ := (evo_act h1).1.log
    exact ⟨ext, e⟩
  · split at hn
    · cases hn; exact ⟨_, rfl⟩
    · cases hn
  · obtain ⟨r, h1, h2⟩ := Out.bind_ok hn
    cases h2
    obtain ⟨ext, e, _⟩ := (evo_afterNotify h1).1.log
    exact ⟨ext, e⟩
  · split at hn
    · split at hn
      · cases hn
      · cases hn; exact same rfl
    · split at hn <;> cases hn <;> exact same rfl
  · obtain ⟨r, h1, h2⟩ := Out.bind_ok hn
    cases h2
    obtain ⟨ext, e, _⟩ := (afterInvoke_evo h1).1
    exact ⟨ext, e⟩
  · obtain ⟨r, h1, h2⟩ := Out.bind_ok hn
    cases h2
    obtain ⟨ext, e, _⟩ := (evo_free h1).log
    exact ⟨ext, e⟩
  · split at hn <;> cases hn <;> exact same rfl
  · cases hn; exact same rfl
  · split at hn
    · cases hn
    · split at hn <;> cases hn <;> exact same rfl
  · split at hn
    · cases hn; exact same rfl
    · split at hn
      · cases hn
      · cases hn; exact same rfl
  · split at hn <;> cases hn
    exact same rfl
  · split at hn
    · cases hn
    · split at hn
      · cases hn
        obtain ⟨ext, e, _⟩ := (evo_close _ c.st).log
        exact ⟨ext, e⟩
      · cases hn; exact same rfl
  · cases hn; exact same rfl
  · split at hn
    · cases hn
    · split at hn <;> cases hn <;> exact same rfl
  · split at hn <;> cases hn <;> exact same rfl

theorem steps_ext {beh c c'} (hs : Steps beh c c') : ∃ ext, c'.st.log = c.st.log ++ ext := by
  induction hs with
  | refl => exact ⟨[], (List.append_nil _).symm⟩
  | step _ hn ih =>
    obtain ⟨x, hx⟩ := ih
    obtain ⟨y, hy⟩ := next_log hn
    exact ⟨x ++ y, by rw [hy, hx, List.append_assoc]⟩

theorem steps_log {beh c c' e} (hs : Steps beh c c') (h : e ∈ c.st.log) : e ∈ c'.st.log := by
  obtain ⟨x, hx⟩ := steps_ext hs
  rw [hx]; exact List.mem_append_left _ h

/-- Each request is made once. -/
theorem unique_closed : Closed (fun s => (∀ id t e, Ev.alloc id t e ∈ s.log → id < s.next) ∧
    ∀ id t e t' e', Ev.alloc id t e ∈ s.log → Ev.alloc id t' e' ∈ s.log → t = t' ∧ e = e') where
  frame := fun h _ _ h3 h4 => by rw [h3, h4]; exact h
  upd := fun h _ => h
  updOut := fun h _ => h
  detach := fun h _ _ _ _ => h
  free := by
    intro s i s' h hf
    obtain ⟨_, rfl⟩ := freeCb_ok hf
    simpa using h
  drop := by
    intro s i h _
    simpa using h
  alloc := by
    intro s c many h
    have key : ∀ {id t e}, Ev.alloc id t e ∈ (Client.alloc c many s).log → Ev.alloc id t e ∈ s.log ∨ (id = s.next ∧ t = c.token ∧ e = c.ep) := by
      intro id t e hm
      rcases List.mem_append.1 hm with hm | hm
      · exact .inl hm
      · cases many <;> simp at hm <;> exact .inr hm
    refine ⟨fun id t e hm => ?_, fun id t e t' e' h1 h2 => ?_⟩
    · show id < s.next + 1
      rcases key hm with hm | ⟨rfl, _⟩
      · have := h.1 id t e hm; omega
      · omega
    · rcases key h1 with h1 | ⟨a, b, d⟩ <;> rcases key h2 with h2 | ⟨a', b', d'⟩
      · exact h.2 id t e t' e' h1 h2
      · have := h.1 id t e h1; omega
      · have := h.1 id t' e' h2; omega
      · exact ⟨by rw [b, b'], by rw [d, d']⟩
  call := by
    intro s i code h _
    simpa using h
  observed := by
    intro s i h
    simpa using h

theorem alloc_unique {beh c} (h : Reach beh c) {id t e t' e'} (h1 : Ev.alloc id t e ∈ c.st.log) (h2 : Ev.alloc id t' e' ∈ c.st.log) :
    t = t' ∧ e = e' :=
  (unique_closed.reach ⟨fun _ _ _ h => (by cases h), fun _ _ _ _ _ h => (by cases h)⟩ h).2 id t e t' e' h1 h2

/-! ### Scripts -/

theorem steps_head {beh c d e} (hn : next beh c = .ok d) (h : Steps beh d e) : Steps beh c e := steps_trans (.step .refl hn) h

theorem settle_steps {beh k c c'} (h : settle beh k c = .ok c') : Steps beh c c' := by
  induction k generalizing c with
  | zero => cases h; exact .refl
  | succ k ih =>
    simp only [settle] at h
    split at h
    · cases h; exact .refl
    · obtain ⟨d, h1, h2⟩ := Out.bind_ok h
      exact steps_head h1 (ih h2)

theorem script_reach {beh k ops s c} (h : Reach beh ⟨[], s⟩) (e : script beh k ops s = .ok c) : Reach beh c := by
  induction ops generalizing s with
  | nil => cases e; exact h
  | cons o os ih =>
    simp only [script] at e
    obtain ⟨d, h1, h2⟩ := Out.bind_ok e
    obtain ⟨d0, h3, h4⟩ := Out.bind_ok h1
    have hd : Reach beh d := steps_reach (.op h h3) (settle_steps h4)
    split at h2
    · rename_i e'
      refine ih ?_ h2
      obtain ⟨k, s'⟩ := d
      cases e'; exact hd
    · cases h2; exact hd

theorem bind_undef {α β} {x : Out α} {f : α → Out β} (h : x.bind f = .ub) : x = .ub ∨ ∃ a, x = .ok a ∧ f a = .ub := by
  cases x with
  | ub => exact .inl rfl
  | ok a => exact .inr ⟨a, rfl, h⟩

theorem settle_undef {beh k c} (hr : Reach beh c) (h : settle beh k c = .ub) : ReachUb beh := by
  induction k generalizing c with
  | zero => cases h
  | succ k ih =>
    simp only [settle] at h
    split at h
    · cases h
    · rcases bind_undef h with h | ⟨d, h1, h2⟩
      · exact .inl ⟨c, hr, h⟩
      · exact ih (.step hr h1) h2

theorem script_undef {beh k ops s} (h : Reach beh ⟨[], s⟩) (e : (match script beh k ops s with | .ub => true | .ok _ => false) = true) : ReachUb beh := by
  have e : script beh k ops s = .ub := by
    split at e
    · assumption
    · cases e
  induction ops generalizing s with
  | nil => cases e
  | cons o os ih =>
    simp only [script] at e
    rcases bind_undef e with e | ⟨d, h1, h2⟩
    · rcases bind_undef e with e | ⟨d, h1, h2⟩
      · exact .inr ⟨s, o, h, e⟩
      · exact settle_undef (.op h h1) h2
    · obtain ⟨d0, h3, h4⟩ := Out.bind_ok h1
      have hd : Reach beh d := steps_reach (.op h h3) (settle_steps h4)
      split at h2
      · rename_i e'
        obtain ⟨k, s'⟩ := d
        cases e'
        exact ih hd (by rw [h2]) h2
      · cases h2

/-! ### A run that never ends -/

/-- One request to the peer is pending, handlers have been called `n` times. -/
structure Again (n : Nat) (s : St) : Prop where
  one : ∃ c : Cb, s.cbs = [c] ∧ c.ep = 5 ∧ c.multicast = false ∧ c.discovery = false ∧ c.ref = false ∧ c.ping = false ∧ c.id < s.next
  out : s.out = []
  calls : s.calls = n
  log : n ≤ s.log.length

/-- What a handler does that makes the same request again. -/
def retry (n : Nat) : List Act := [.req .get ⟨n + 9, n + 9, 5, 3, false, false, false⟩ .sent]

theorem req_new (r : Req) (s : St) (hr : r.con = false) (hc : s.cbs = []) : ∃ s', req .get r .sent s = .ok s' ∧
    (∃ c : Cb, s'.cbs = [c] ∧ c.ep = r.ep ∧ c.multicast = false ∧ c.discovery = false ∧ c.ref = false ∧ c.ping = false ∧ c.id < s'.next ∧ c.id = s.next) ∧
    s'.out = s.out ∧ s'.calls = s.calls ∧ s.log.length ≤ s'.log.length := by
  unfold req doReq
  dsimp only
  have e := sentCb_same s.next s.nextT r.con ((r.cb true none false false).obs == none) r.timed
    (newTrans (r.cb true none false false).mid (r.cb true none false false).ep r.secured (alloc (r.cb true none false false) false s))
  have e6 : (sentCb s.next s.nextT r.con ((r.cb true none false false).obs == none) r.timed
    (newTrans (r.cb true none false false).mid (r.cb true none false false).ep r.secured (alloc (r.cb true none false false) false s))).calls = s.calls := by
    unfold sentCb
    rw [hr]; rfl
  generalize hq : sentCb s.next s.nextT r.con ((r.cb true none false false).obs == none) r.timed
    (newTrans (r.cb true none false false).mid (r.cb true none false false).ep r.secured (alloc (r.cb true none false false) false s)) = q at *
  refine ⟨_, rfl, ⟨{ r.cb true none false false with id := s.next, stop := false, ref := false }, ?_, rfl, rfl, rfl, rfl, rfl, ?_, rfl⟩, ?_, e6, ?_⟩
  · show q.cbs = _
    rw [e.1]
    show s.cbs ++ _ = _
    rw [hc]; rfl
  · show s.next < q.next
    rw [e.2.2.1]
    exact Nat.lt_succ_self _
  · show q.out = _
    rw [e.2.1]; rfl
  · show _ ≤ q.log.length
    rw [e.2.2.2]
    show _ ≤ (s.log ++ _).length
    simp

theorem again_step {n s} (h : Again n s) : ∃ s', Steps retry ⟨[.loop (.ep 5) .connectionClosed], s⟩ ⟨[.loop (.ep 5) .connectionClosed], s'⟩ ∧ Again (n + 1) s' := by
  obtain ⟨⟨c, hc, h1, h2, h3, h4, h5, h6⟩, ho, hn, hl⟩ := h
  have e1 : (detach { c with ref := true } s).cbs = [] := by simp [detach, hc]
  have e2 : (detach { c with ref := true } s).out = [{ c with ref := true }] := by simp [detach, ho]
  have e3 : (detach { c with ref := true } s).calls = n := hn
  have e4 : (detach { c with ref := true } s).next = s.next := rfl
  have e5 : (detach { c with ref := true } s).log = s.log := rfl
  have s1 : next retry ⟨[.loop (.ep 5) .connectionClosed], s⟩ = .ok ⟨[.handler c.id .connectionClosed, .afterNotify c.id, .loop (.ep 5) .connectionClosed], detach { c with ref := true } s⟩ := by
    simp [next, hc, Pick.hit, h1, h2, h3, h4]
  generalize detach { c with ref := true } s = t at *
  have s2 : next retry ⟨[.handler c.id .connectionClosed, .afterNotify c.id, .loop (.ep 5) .connectionClosed], t⟩ =
      .ok ⟨[.acts c.id (retry n), .afterNotify c.id, .loop (.ep 5) .connectionClosed], { t with calls := n + 1, log := t.log ++ [.called c.id .connectionClosed] }⟩ := by
    simp [next, St.mem, e1, e2, e3]
  have hu : ∃ u : St, u = { t with calls := n + 1, log := t.log ++ [.called c.id .connectionClosed] } := ⟨_, rfl⟩
  obtain ⟨u, hu⟩ := hu
  rw [← hu] at s2
  obtain ⟨v, hv, hone, hvo, hvc, hvl⟩ := req_new ⟨n + 9, n + 9, 5, 3, false, false, false⟩ u rfl (by rw [hu]; exact e1)
  have s3 : next retry ⟨[.acts c.id (retry n), .afterNotify c.id, .loop (.ep 5) .connectionClosed], u⟩ =
      .ok ⟨[.acts c.id [], .afterNotify c.id, .loop (.ep 5) .connectionClosed], v⟩ := by
    simp only [retry, next, act]
    rw [hv]; rfl
  have s4 : next retry ⟨[.acts c.id [], .afterNotify c.id, .loop (.ep 5) .connectionClosed], v⟩ = .ok ⟨[.afterNotify c.id, .loop (.ep 5) .connectionClosed], v⟩ := rfl
  have hvo : v.out = [{ c with ref := true }] := by rw [hvo, hu]; exact e2
  have hf : v.out.find? (fun d => d.id == c.id) = some { c with ref := true } := by rw [hvo]; simp
  have hd : dropPing false { c with ref := true } v = v := by
    unfold dropPing
    rw [if_neg (by simp [h5])]
  have s5 : next retry ⟨[.afterNotify c.id, .loop (.ep 5) .connectionClosed], v⟩ =
      .ok ⟨[.loop (.ep 5) .connectionClosed], { v with out := [], log := v.log ++ [.freed c.id] }⟩ := by
    simp only [next, afterNotify, hf, hd, Out.bind]
    rw [hvo]
    simp
  refine ⟨_, steps_head s1 (steps_head s2 (steps_head s3 (steps_head s4 (steps_head s5 .refl)))), ?_⟩
  obtain ⟨d, a1, a2, a3, a4, a5, a6, a7, _⟩ := hone
  refine ⟨⟨d, a1, a2, a3, a4, a5, a6, a7⟩, rfl, by rw [← show u.calls = n + 1 by rw [hu]]; exact hvc, ?_⟩
  show n + 1 ≤ (v.log ++ _).length
  rw [hu] at hvl
  simp at hvl ⊢
  rw [e5] at hvl
  omega

/-- From two runs of the machine one goes on to the other. -/
theorem steps_det {beh a b c} (h : Steps beh a b) (k : Steps beh a c) : Steps beh b c ∨ Steps beh c b := by
  induction h with
  | refl => exact .inl k
  | step hb hn ih =>
    rename_i b' b
    rcases ih with h | h
    · have key : ∀ {x y}, Steps beh x y → x = y ∨ ∃ z, next beh x = .ok z ∧ Steps beh z y := by
        intro x y h
        induction h with
        | refl => exact .inl rfl
        | step _ hn ih =>
          rcases ih with rfl | ⟨z, hz, hs⟩
          · exact .inr ⟨_, hn, .refl⟩
          · exact .inr ⟨z, hz, .step hs hn⟩
      rcases key h with rfl | ⟨z, hz, hs⟩
      · exact .inr (.step .refl hn)
      · rw [hn] at hz; cases hz; exact .inl hs
    · exact .inr (.step h hn)

theorem steps_done {beh s c} (h : Steps beh ⟨[], s⟩ c) : c = ⟨[], s⟩ := by
  generalize e : (⟨[], s⟩ : Conf) = c0 at h
  induction h with
  | refl => rfl
  | step _ hn ih =>
    rw [ih, ← e] at hn
    cases hn
    exact e.symm ▸ rfl

end Verif.Client
