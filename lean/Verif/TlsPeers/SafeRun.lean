import Verif.TlsPeers.Safe

/-! Runs without undefined behaviour, area TlsPeers: the functions that handle events. -/

namespace Verif.TlsPeers

open Spec

theorem safe_of {s s' : St} (w : Safe s) (hp : ∀ p ∈ s.peers, ∃ q ∈ s'.peers, q.addr = p.addr) (ha : s'.asserts = s.asserts)
    (hq : ∀ a, (Ev.read a ∈ s'.q ∨ Ev.write a ∈ s'.q) → (Ev.read a ∈ s.q ∨ Ev.write a ∈ s.q) ∨ ∃ p ∈ s'.peers, p.addr = a) : Safe s' := by
  refine ⟨?_, ha.trans w.as⟩
  intro a h
  rcases hq a h with h | h
  · obtain ⟨p, h1, rfl⟩ := w.ev a h
    exact hp p h1
  · exact h

theorem unref_safe {s : St} (w : Safe s) (m : Msg) : Safe (unref s m) := ⟨w.ev, w.as⟩

theorem set_addr {s : St} {f : Peer → Peer} (hf : ∀ p, (f p).addr = p.addr) (a : Nat) :
    ∀ p ∈ s.peers, ∃ q ∈ (set s a f).peers, q.addr = p.addr := by
  intro p hp
  refine ⟨_, List.mem_map.2 ⟨p, hp, rfl⟩, ?_⟩
  split <;> simp [hf]

theorem live_set {s : St} {f : Peer → Peer} (hf : ∀ p, (f p).addr = p.addr) (a b : Nat) (h : live s b = true) : live (set s a f) b = true := by
  obtain ⟨p, hp, rfl⟩ := live_iff.1 h
  obtain ⟨q, hq, e⟩ := set_addr hf a p hp
  exact live_iff.2 ⟨q, hq, e⟩

theorem take_q (s : St) (a n : Nat) : (take s a n).q = s.q ∧ (take s a n).asserts = s.asserts ∧
    (∀ p ∈ s.peers, ∃ q ∈ (take s a n).peers, q.addr = p.addr) := by
  unfold take
  split
  · exact ⟨rfl, rfl, fun p hp => ⟨p, hp, rfl⟩⟩
  · exact ⟨rfl, rfl, set_addr (s := s) (f := fun p => { p with recvq := p.recvq.drop n }) (fun _ => rfl) a⟩

theorem take_safe {s : St} (w : Safe s) (a n : Nat) : Safe (take s a n) := by
  obtain ⟨h1, h2, h3⟩ := take_q s a n
  exact safe_of w h3 h2 (fun b h => .inl (by rw [h1] at h; exact h))

theorem addNew_safe {c : Cfg} {hand : List Msg} {o : Or} (hq : Quiet c) {ep : Ep} {cl : Bool} {s : St} (b : Base c hand s) (w : Safe s) :
    ∃ r, addNew c o ep cl s = .ok r ∧ Safe r.1 := by
  unfold addNew
  split
  · exact ⟨_, rfl, w⟩
  · split
    · exact ⟨_, rfl, w⟩
    · rename_i a _
      split
      · exact ⟨_, rfl, w⟩
      · rename_i hl
        split
        · obtain ⟨s', h1, h2⟩ := freePeer_safe (o := o) hq b w (newPeer s a ep cl) (.inr ⟨by simpa [newPeer] using hl, rfl, rfl⟩) false false true
          rw [h1]; exact ⟨_, rfl, h2⟩
        · refine ⟨_, rfl, safe_of w ?_ rfl (fun a h => .inl h)⟩
          intro p hp
          exact ⟨p, List.mem_append.2 (.inl hp), rfl⟩

theorem addOrGet_safe {c : Cfg} {hand : List Msg} {o : Or} (hq : Quiet c) {ep : Ep} {cl : Bool} {s : St} (b : Base c hand s) (w : Safe s) :
    ∃ r, addOrGet c o ep cl s = .ok r ∧ Safe r.1 := by
  unfold addOrGet
  split
  · exact ⟨_, rfl, w⟩
  · exact addNew_safe hq b w

theorem recvMsg_safe {c : Cfg} {hand : List Msg} {o : Or} (hq : Quiet c) {m : Msg} {s : St} (b : Base c hand s) (w : Safe s) :
    ∃ s', recvMsg c o m s = .ok s' ∧ Safe s' := by
  have : ∃ r, recvPeer c o m.ep s = .ok r ∧ Safe r.1 ∧ ∀ a, r.2 = some a → live r.1 a = true := by
    unfold recvPeer
    split
    · refine ⟨_, rfl, w, ?_⟩
      intro a h
      dsimp only at h ⊢
      split at h
      · cases h
      · rename_i p hp
        split at h
        · cases h; exact live_iff.2 ⟨p, (getPeer_some hp).1, rfl⟩
        · cases h
    · obtain ⟨r, h1, h2⟩ := addOrGet_safe (o := o) (ep := m.ep) (cl := false) hq b w
      exact ⟨r, h1, h2, (addOrGet_base b h1).2⟩
  obtain ⟨r, h1, h2, h3⟩ := this
  unfold recvMsg
  rw [h1]
  refine ⟨_, rfl, ?_⟩
  split
  · exact unref_safe h2 m
  · rename_i a ha
    refine safe_of h2 (set_addr (s := r.1) (f := fun p => { p with recvq := p.recvq ++ [m], ts := r.1.clock }) (fun _ => rfl) a) rfl ?_
    intro x hx
    simp only [gotten, List.mem_append, List.mem_singleton] at hx
    by_cases e : x = a
    · subst e
      right
      obtain ⟨p, hp, rfl⟩ := live_iff.1 (h3 x ha)
      exact set_addr (s := r.1) (f := fun p => { p with recvq := p.recvq ++ [m], ts := r.1.clock }) (fun _ => rfl) p.addr p hp
    · left
      rcases hx with (hx | hx) | (hx | hx)
      · exact .inl hx
      · cases hx; exact absurd rfl e
      · exact .inr hx
      · cases hx

theorem handshake_safe {c : Cfg} {hand : List Msg} {o : Or} (hq : Quiet c) {a : Nat} {s : St} (b : Base c hand s) (w : Safe s)
    (hl : live s a = true) : ∃ s', handshake c o a s = .ok s' ∧ Safe s' := by
  obtain ⟨p, hp, rfl⟩ := live_iff.1 hl
  unfold handshake
  rw [at_mem b.nd hp]
  dsimp only
  split
  · exact freePeer_safe hq b w p (.inl hp) _ _ _
  · exact ⟨_, rfl, take_safe w _ _⟩
  · refine ⟨_, rfl, ?_⟩
    obtain ⟨h1, h2, h3⟩ := take_q s p.addr o.taken
    have hpp : ∀ x ∈ s.peers, ∃ y ∈ (set (take s p.addr o.taken) p.addr fun p => { p with over := true }).peers, y.addr = x.addr := by
      intro x hx
      obtain ⟨y, hy, e⟩ := h3 x hx
      obtain ⟨z, hz, e'⟩ := set_addr (f := fun p => { p with over := true }) (fun _ => rfl) p.addr y hy
      exact ⟨z, hz, e'.trans e⟩
    refine safe_of w hpp h2 ?_
    intro x hx
    simp only [List.mem_append, List.mem_singleton, h1] at hx
    rcases hx with (hx | hx) | (hx | hx)
    · exact .inl (.inl hx)
    · cases hx
    · exact .inl (.inr hx)
    · cases hx; exact .inr (hpp p hp)

theorem queueSend_safe {c : Cfg} {hand : List Msg} {o : Or} (hq : Quiet c) {a : Nat} {m : Msg} {s : St} (b : Base c (m :: hand) s) (w : Safe s)
    (hl : live s a = true) : ∃ s', queueSend c o a m s = .ok s' ∧ Safe s' := by
  obtain ⟨p, hp, rfl⟩ := live_iff.1 hl
  unfold queueSend
  rw [at_mem b.nd hp]
  dsimp only
  split
  · exact ⟨_, rfl, unref_safe w m⟩
  · have hs : ∀ x : St, x = (if p.sendq.contains m then unref s m else set s p.addr fun p => { p with sendq := p.sendq ++ [m] }) →
        Base c hand x ∧ Safe x ∧ live x p.addr = true := by
      intro x hx
      subst hx
      split
      · exact ⟨unref_base b, unref_safe w m, hl⟩
      · refine ⟨?_, set_safe w _ _ (fun _ => rfl), live_set (f := fun p => { p with sendq := p.sendq ++ [m] }) (fun _ => rfl) _ _ hl⟩
        refine set_base2 b p hp _ (fun _ => rfl) (fun _ => rfl) (fun _ => .inl rfl) ?_
        intro x
        simp only [pq, List.count_append, List.count_cons, List.count_nil]
        omega
    generalize (if p.sendq.contains m then unref s m else set s p.addr fun p => { p with sendq := p.sendq ++ [m] }) = x at hs ⊢
    obtain ⟨b1, w1, l1⟩ := hs x rfl
    split
    · exact ⟨_, rfl, w1⟩
    · split
      · split
        · exact handshake_safe hq b1 w1 l1
        · exact ⟨_, rfl, w1⟩
        · obtain ⟨y, hy, e⟩ := live_iff.1 l1
          rw [← e, at_mem b1.nd hy]
          exact freePeer_safe hq b1 w1 y (.inl hy) _ _ _
      · exact handshake_safe hq b1 w1 l1

theorem initConn_safe {c : Cfg} {hand : List Msg} {o : Or} (hq : Quiet c) {m : Msg} {s : St} (b : Base c (m :: hand) s) (w : Safe s)
    (ht : ∀ p, getPeer s m.ep = some p → p.client = true) : ∃ s', initConn c o m s = .ok s' ∧ Safe s' := by
  unfold initConn
  split
  · exact ⟨_, rfl, unref_safe w m⟩
  · have : ∃ r, sendPeer c o m.ep s = .ok r ∧ Base c (m :: hand) r.1 ∧ Safe r.1 ∧ ∀ a, r.2 = some a → live r.1 a = true := by
      unfold sendPeer
      cases hg : getPeer s m.ep with
      | none =>
        dsimp only
        obtain ⟨r, h1, h2⟩ := addOrGet_safe (o := o) (ep := m.ep) (cl := true) hq b w
        exact ⟨r, h1, (addOrGet_base b h1).1, h2, (addOrGet_base b h1).2⟩
      | some p =>
        dsimp only
        rw [if_pos (ht p hg)]
        exact ⟨_, rfl, b, w, fun a h => by cases h; exact live_iff.2 ⟨p, (getPeer_some hg).1, rfl⟩⟩
    obtain ⟨r, h1, h2, h3, h4⟩ := this
    rw [h1]
    show ∃ s', (match r.2 with | none => Out.ok (unref r.1 m) | some a => queueSend c o a m r.1) = .ok s' ∧ Safe s'
    cases hr : r.2 with
    | none => exact ⟨_, rfl, unref_safe h3 m⟩
    | some a => exact queueSend_safe hq h2 h3 (h4 a hr)

theorem wrote_safe {s : St} (w : Safe s) (a : Nat) (m : Msg) : Safe (wrote s a m) :=
  safe_of w (set_addr (s := s) (f := fun p => { p with ts := s.clock }) (fun _ => rfl) a) rfl (fun _ h => .inl h)

theorem sendMsg_safe {c : Cfg} {hand : List Msg} {o : Or} (hq : Quiet c) {m : Msg} {s : St} (b : Base c (m :: hand) s) (w : Safe s)
    (ht : ∀ p ∈ s.peers, eqEp p.ep m.ep = true → p.over = true ∨ p.client = true) : ∃ s', sendMsg c o m s = .ok s' ∧ Safe s' := by
  unfold sendMsg
  cases hg : getPeer s m.ep with
  | none => exact initConn_safe hq b w (by rw [hg]; intro p h; cases h)
  | some p =>
    obtain ⟨hp, he⟩ := getPeer_some hg
    dsimp only
    split
    · rename_i ho
      refine initConn_safe hq b w ?_
      rw [hg]
      intro q h
      cases h
      rcases ht p hp he with h | h
      · rw [h] at ho; cases ho
      · exact h
    · split
      · exact ⟨_, rfl, unref_safe (wrote_safe w _ _) m⟩
      · exact ⟨_, rfl, unref_safe w m⟩
      · exact freePeer_safe hq (unref_base b) (unref_safe w m) p (.inl hp) _ _ _

theorem writeLoop_safe {c : Cfg} {hand : List Msg} {o : Or} (hq : Quiet c) (h0 : 0 < c.timeout) {a : Nat} (l : List Msg) (i : Nat) {s : St}
    (b : Base c hand s) (w : Safe s) (hl : ∃ p ∈ s.peers, p.addr = a ∧ p.sendq = l) :
    ∃ s', writeLoop c o a i l s = .ok s' ∧ Safe s' := by
  induction l generalizing i s with
  | nil => exact ⟨_, rfl, w⟩
  | cons m l ih =>
    obtain ⟨p, hp, rfl, hs⟩ := hl
    rw [writeLoop]
    have b1 : Base c (m :: hand) (set s p.addr fun p => { p with sendq := l }) := by
      refine set_base2 b p hp _ (fun _ => rfl) (fun _ => rfl) (fun _ => .inl rfl) ?_
      intro x
      simp only [pq, hs, List.count_append, List.count_cons]
      omega
    have w1 : Safe (set s p.addr fun p => { p with sendq := l }) := set_safe w _ _ (fun _ => rfl)
    have hm : { p with sendq := l } ∈ (set s p.addr fun p => { p with sendq := l }).peers :=
      List.mem_map.2 ⟨p, hp, by simp⟩
    have b2 := unref_base b1
    have w2 := unref_safe w1 m
    split
    · refine ih _ (wrote_base (p := { p with sendq := l }) h0 b2 hm) (wrote_safe w2 _ _) ?_
      exact ⟨{ p with sendq := l, ts := s.clock }, List.mem_map.2 ⟨_, hm, by simp [unref, set]⟩, rfl, rfl⟩
    · exact ih _ b2 w2 ⟨_, hm, rfl, rfl⟩
    · have := at_mem b2.nd (p := { p with sendq := l }) hm
      dsimp only at this
      rw [this]
      exact freePeer_safe hq b2 w2 _ (.inl hm) _ _ _

theorem perform_nil (c : Cfg) (o : Or) (s : St) : perform c o [] s = .ok s := by
  unfold perform
  cases fuel s <;> rfl

theorem readEv_safe {c : Cfg} {hand : List Msg} {o : Or} (hq : Quiet c) (hr : o.roles = none) {a : Nat} {s : St} (b : Base c hand s)
    (w : Safe s) : ∃ s', readEv c o a s = .ok s' ∧ Safe s' := by
  unfold readEv
  cases hat : at? s a with
  | none => exact ⟨_, rfl, w⟩
  | some p =>
    obtain ⟨hp, rfl⟩ := at_some hat
    dsimp only
    split
    · unfold hsStep
      split
      · exact freePeer_safe hq b w p (.inl hp) _ _ _
      · exact ⟨_, rfl, take_safe w _ _⟩
      · dsimp only
        rw [(hq p.ep).2]
        show ∃ s', (perform c o [] _).bind _ = .ok s' ∧ Safe s'
        rw [perform_nil]
        show ∃ s', begun o p.addr p.ep _ = .ok s' ∧ Safe s'
        unfold begun
        rw [hr]
        refine ⟨_, rfl, ?_⟩
        obtain ⟨h1, h2, h3⟩ := take_q s p.addr o.taken
        have hpp : ∀ x ∈ s.peers, ∃ y ∈ (set (take s p.addr o.taken) p.addr fun p => { p with over := true }).peers, y.addr = x.addr := by
          intro x hx
          obtain ⟨y, hy, e⟩ := h3 x hx
          obtain ⟨z, hz, e'⟩ := set_addr (f := fun p => { p with over := true }) (fun _ => rfl) p.addr y hy
          exact ⟨z, hz, e'.trans e⟩
        refine safe_of w hpp h2 ?_
        intro x hx
        simp only [List.mem_append, List.mem_singleton, set, h1] at hx
        rcases hx with (hx | hx) | (hx | hx)
        · exact .inl (.inl hx)
        · cases hx
        · exact .inl (.inr hx)
        · cases hx; exact .inr (hpp p hp)
    · split
      · refine ⟨_, rfl, ?_⟩
        have := take_safe w p.addr o.taken
        exact ⟨this.ev, this.as⟩
      · exact ⟨_, rfl, take_safe w _ _⟩
      · exact freePeer_safe hq b w p (.inl hp) _ _ _

theorem first_ok {s : St} (t : Option Nat → Task) (h1 : ∀ x, tep (t x) = []) (h2 : ∀ x, tgt (t x) = x.toList) : TaskOk s [t (first s)] := by
  refine taskOk_one _ (h1 _) ?_
  intro a ha
  rw [h2] at ha
  unfold first at ha
  cases hp : s.peers with
  | nil => rw [hp] at ha; cases ha
  | cons p l =>
    rw [hp] at ha
    exact ⟨p, List.mem_cons_self .., (List.mem_singleton.1 ha).symm⟩

theorem handle_safe {c : Cfg} {o : Or} (hq : Quiet c) (h0 : 0 < c.timeout) (hr : o.roles = none) {e : Ev} {s : St}
    (b : Base c (evMsgs e ++ []) s) (w : Safe s)
    (ht : ∀ m, e = .send m → ∀ p ∈ s.peers, eqEp p.ep m.ep = true → p.over = true ∨ p.client = true) :
    ∃ s', handle c o e s = .ok s' ∧ Safe s' := by
  cases e with
  | recv m => exact recvMsg_safe hq b w
  | send m => exact sendMsg_safe hq b w (ht m rfl)
  | timer => exact perform_one hq _ b w (first_ok .retry (fun _ => rfl) (fun x => by cases x <;> rfl))
  | read a => exact readEv_safe hq hr b w
  | write a =>
    show ∃ s', writeEv c o a s = .ok s' ∧ Safe s'
    unfold writeEv
    split
    · exact ⟨_, rfl, w⟩
    · rename_i p hp
      exact writeLoop_safe hq h0 _ _ b w ⟨p, (at_some hp).1, (at_some hp).2, rfl⟩
  | closeAll d => exact perform_one hq _ b w (first_ok (fun x => .scan x (some d)) (fun _ => rfl) (fun x => by cases x <;> rfl))

theorem inactLoop_safe {c : Cfg} {hand : List Msg} {o : Or} (hq : Quiet c) (l : List (Nat × Nat)) {s : St} (b : Base c hand s) (w : Safe s) :
    ∃ s', inactLoop c o l s = .ok s' ∧ Safe s' := by
  induction l generalizing s with
  | nil => exact ⟨_, rfl, w⟩
  | cons x l ih =>
    have hstep : ∀ s1, inactLoop c o [x] s = .ok s1 → Base c hand s1 := fun s1 h => inactLoop_base [x] b h
    rw [inactLoop]
    rw [inactLoop] at hstep
    split
    · exact ih b w
    · rename_i hc
      rw [if_neg hc] at hstep
      split
      · rename_i hat
        rw [hat] at hstep
        exact ih (hstep _ rfl) ⟨w.ev, w.as⟩
      · rename_i p hat
        rw [hat] at hstep
        dsimp only at hstep
        obtain ⟨hp, -⟩ := at_some hat
        split
        · rename_i hlt
          rw [if_pos hlt] at hstep
          exact ih (hstep _ rfl) ⟨w.ev, w.as⟩
        · rename_i hlt
          rw [if_neg hlt] at hstep
          obtain ⟨s', h1, h2⟩ := freePeer_safe (o := o) hq b w p (.inl hp) true false true
          rw [h1] at hstep ⊢
          exact ih (hstep _ rfl) ⟨h2.ev, h2.as⟩

theorem step_safe {c : Cfg} {s : St} {op : Op} (hq : Quiet c) (h0 : 0 < c.timeout) (b : Base c [] s) (w : Safe s) (ht : Tame s op) :
    ∃ s', step c s op = .ok s' ∧ Safe s' := by
  have hpost : ∀ (e : Ev) (i : List Msg), (∀ a, e ≠ .read a ∧ e ≠ .write a) → Safe { s with q := s.q ++ [e], inp := i } := by
    intro e i he
    refine safe_of w (fun p hp => ⟨p, hp, rfl⟩) rfl ?_
    intro a h
    simp only [List.mem_append, List.mem_singleton] at h
    rcases h with (h | h) | (h | h)
    · exact .inl (.inl h)
    · exact absurd h.symm (he a).1
    · exact .inl (.inr h)
    · exact absurd h.symm (he a).2
  have hone : ∀ t : Task, tgt t = [] → ∃ s', perform c {} [t] s = .ok s' ∧ Safe s' := by
    intro t h
    refine perform_one hq t b w ⟨?_, ?_, ⟨.inr rfl, trivial⟩⟩
    · simp [h]
    · simp [h]
  cases op with
  | net m => exact ⟨_, rfl, hpost _ _ (fun _ => ⟨(fun h => nomatch h), (fun h => nomatch h)⟩)⟩
  | req m => exact ⟨_, rfl, hpost _ _ (fun _ => ⟨(fun h => nomatch h), (fun h => nomatch h)⟩)⟩
  | timer => exact ⟨_, rfl, hpost _ _ (fun _ => ⟨(fun h => nomatch h), (fun h => nomatch h)⟩)⟩
  | reset d => exact ⟨_, rfl, hpost _ _ (fun _ => ⟨(fun h => nomatch h), (fun h => nomatch h)⟩)⟩
  | run o =>
    rw [step]
    cases hs : s.q with
    | nil => exact ⟨_, rfl, w⟩
    | cons e l =>
      dsimp only
      refine handle_safe hq h0 ht.1 ?_ ?_ ?_
      · refine ⟨b.nd, b.pw, ?_, b.idle, b.ts⟩
        intro x
        have := b.cons x
        rw [hs] at this
        simp only [List.flatMap_cons, List.count_append, List.append_nil, List.count_nil] at this ⊢
        omega
      · refine safe_of w (fun p hp => ⟨p, hp, rfl⟩) rfl ?_
        intro a h
        left
        rw [hs]
        exact h.imp (List.mem_cons_of_mem _) (List.mem_cons_of_mem _)
      · intro m e'
        subst e'
        exact ht.2 m l hs
  | tick now o =>
    rw [step]
    dsimp only
    refine inactLoop_safe hq _ (hand := []) ?_ ⟨w.ev, w.as⟩
    refine ⟨b.nd, b.pw, b.cons, ?_, ?_⟩
    · intro p hp hpt
      obtain ⟨d, h1, h2, h3⟩ := b.idle p hp hpt
      exact ⟨d, h1, Nat.le_trans h2 (Nat.add_le_add_right (Nat.le_max_left ..) _), h3⟩
    · intro p hp
      exact Nat.le_trans (b.ts p hp) (Nat.le_max_left ..)
  | add ep o =>
    obtain ⟨r, h1, h2⟩ := addOrGet_safe (o := o) (ep := ep) (cl := true) hq b w
    rw [step, h1]
    exact ⟨_, rfl, h2⟩
  | close ep => exact hone _ rfl
  | remove ep n => exact hone _ rfl
  | closeAll => exact perform_one hq _ b w (first_ok (fun x => .scan x none) (fun _ => rfl) (fun x => by cases x <;> rfl))
  | shutdown => exact hone _ rfl
  | asserted a =>
    rw [step, w.as]
    exact ⟨_, rfl, w⟩
  | state d x y => exact ⟨_, rfl, ⟨w.ev, w.as⟩⟩

theorem run_safe {c : Cfg} (hq : Quiet c) (h0 : 0 < c.timeout) (ops : List Op) {s : St} (b : Base c [] s) (w : Safe s) (ht : TameRun c s ops) :
    ∃ s', run c s ops = .ok s' ∧ Safe s' := by
  induction ops generalizing s with
  | nil => exact ⟨s, rfl, w⟩
  | cons op ops ih =>
    obtain ⟨s1, h1, h2⟩ := step_safe hq h0 b w ht.1
    rw [run, h1]
    exact ih (step_base h0 b h1) h2 (ht.2 s1 h1)

end Verif.TlsPeers
