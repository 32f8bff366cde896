import Verif.TlsPeers.Lemmas

/-! Every step keeps the invariant, area TlsPeers. -/

namespace Verif.TlsPeers

open Spec

theorem base_q {c : Cfg} {hand : List Msg} {s : St} (b : Base c hand s) (e : Ev) (he : evMsgs e = []) :
    Base c hand { s with q := s.q ++ [e] } := by
  refine ⟨b.nd, b.pw, ?_, b.idle, b.ts⟩
  intro m
  have := b.cons m
  simp only [List.flatMap_append, List.flatMap_cons, he, List.flatMap_nil, List.append_nil]
  exact this

theorem unref_base {c : Cfg} {hand : List Msg} {s : St} {m : Msg} (b : Base c (m :: hand) s) : Base c hand (unref s m) := by
  refine ⟨b.nd, b.pw, ?_, b.idle, b.ts⟩
  intro x
  have := b.cons x
  simp only [unref, List.count_append, List.count_cons, List.count_nil] at this ⊢
  omega

/-- An update of a peer that changes its queues, or when it was active last. -/
theorem set_base2 {c : Cfg} {h1 h2 : List Msg} {s : St} (b : Base c h1 s) (p : Peer) (hp : p ∈ s.peers) (f : Peer → Peer)
    (ha : ∀ p, (f p).addr = p.addr) (he : ∀ p, (f p).ep = p.ep)
    (ht : ∀ p, (f p).ts = p.ts ∨ ((f p).ts = s.clock ∧ 0 < c.timeout))
    (hq : ∀ m, (pq (f p)).count m + h2.count m = (pq p).count m + h1.count m) :
    Base c h2 (set s p.addr f) := by
  have ha' : ∀ x : Peer, (if x.addr == p.addr then f x else x).addr = x.addr := by intro x; split <;> simp [ha]
  have he' : ∀ x : Peer, (if x.addr == p.addr then f x else x).ep = x.ep := by intro x; split <;> simp [he]
  have ht' : ∀ x : Peer, (if x.addr == p.addr then f x else x).ts = x.ts ∨
      ((if x.addr == p.addr then f x else x).ts = s.clock ∧ 0 < c.timeout) := by
    intro x; split
    · exact ht x
    · exact .inl rfl
  refine ⟨?_, ?_, ?_, ?_, ?_⟩
  · simp only [set, List.map_map, Function.comp_def, ha']; exact b.nd
  · simp only [set, List.pairwise_map, he']; exact b.pw
  · intro m
    have h1 := count_map_set b.nd f hp m
    have h2 := b.cons m
    have h3 := hq m
    simp only [set]
    omega
  · intro y hy htc
    obtain ⟨x, hx, rfl⟩ := List.mem_map.1 hy
    rw [he'] at htc
    rw [ha']
    obtain ⟨d, hd, h1, h2⟩ := b.idle x hx htc
    refine ⟨d, hd, h1, ?_⟩
    rcases ht' x with h | ⟨h, h0⟩
    · rw [h]; exact h2
    · rw [h]; right; omega
  · intro y hy
    obtain ⟨x, hx, rfl⟩ := List.mem_map.1 hy
    rcases ht' x with h | ⟨h, _⟩
    · rw [h]; exact b.ts x hx
    · rw [h]; exact Nat.le_refl _

theorem eq_newEp {s : St} {x ep : Ep} (h : eqEp x ep = false) : eqEp x (newEp s ep) = false := by
  unfold newEp
  split
  · rename_i ht
    simp only [Bool.and_eq_true, beq_iff_eq] at ht
    simp only [eqEp, Bool.and_eq_false_iff, Bool.or_eq_false_iff, ht.2, beq_self_eq_true, Bool.or_true, Bool.true_or,
      Bool.true_eq_false, or_false] at h ⊢
    simp only [h, true_or]
  · exact h

theorem newEp_tcp (s : St) (ep : Ep) : (newEp s ep).tcp = ep.tcp ∧ (newEp s ep).dev = ep.dev := by
  unfold newEp; split <;> exact ⟨rfl, rfl⟩

theorem addPeer_base {c : Cfg} {hand : List Msg} {s : St} (b : Base c hand s) (a : Nat) (ep : Ep) (cl : Bool)
    (hl : live s a = false) (hg : getPeer s ep = none) : Base c hand (addPeer c s (newPeer s a ep cl)) := by
  have hn : ∀ x ∈ s.peers, x.addr ≠ a := by
    intro x hx e
    rw [live_iff.2 ⟨x, hx, e⟩] at hl
    cases hl
  refine ⟨?_, ?_, ?_, ?_, ?_⟩
  · simp only [addPeer, newPeer, List.map_append, List.map_cons, List.map_nil]
    rw [List.nodup_append]
    refine ⟨b.nd, by simp, ?_⟩
    intro x hx y hy
    obtain ⟨p, hp, rfl⟩ := List.mem_map.1 hx
    rw [List.mem_singleton] at hy
    subst hy
    exact hn p hp
  · simp only [addPeer, newPeer]
    rw [List.pairwise_append]
    refine ⟨b.pw, List.pairwise_singleton _ _, ?_⟩
    intro x hx y hy
    rw [List.mem_singleton] at hy
    subst hy
    exact eq_newEp (getPeer_none hg x hx)
  · intro m
    have := b.cons m
    simp only [addPeer, newPeer, List.flatMap_append, List.flatMap_cons, List.flatMap_nil, pq, List.append_nil] at this ⊢
    exact this
  · intro p hp ht
    simp only [addPeer, newPeer] at hp ⊢
    rcases List.mem_append.1 hp with hp | hp
    · obtain ⟨d, hd, h1⟩ := b.idle p hp ht
      refine ⟨d, ?_, h1⟩
      show (p.addr, d) ∈ if ep.tcp then s.inact else s.inact ++ [(a, s.clock + c.timeout)]
      split
      · exact hd
      · exact List.mem_append.2 (.inl hd)
    · rw [List.mem_singleton] at hp
      subst hp
      simp only [(newEp_tcp s ep).1] at ht
      refine ⟨s.clock + c.timeout, ?_, Nat.le_refl _, .inl rfl⟩
      simp [ht]
  · intro p hp
    simp only [addPeer, newPeer] at hp ⊢
    rcases List.mem_append.1 hp with hp | hp
    · exact b.ts p hp
    · rw [List.mem_singleton] at hp
      subst hp
      exact Nat.zero_le _

theorem addNew_base {c : Cfg} {hand : List Msg} {o : Or} {ep : Ep} {cl : Bool} {s : St} {r : St × Option Nat} (b : Base c hand s)
    (hg : getPeer s ep = none) (h : addNew c o ep cl s = .ok r) :
    Base c hand r.1 ∧ (∀ a, r.2 = some a → live r.1 a = true) := by
  unfold addNew at h
  split at h
  · cases h; exact ⟨b, fun a h => by cases h⟩
  · split at h
    · cases h; exact ⟨b, fun a h => by cases h⟩
    · rename_i a hm
      split at h
      · cases h; exact ⟨b, fun a h => by cases h⟩
      · rename_i hl
        have hl : live s a = false := by simpa using hl
        split at h
        · obtain ⟨s1, h1, h2⟩ := bind_ok h
          cases h2
          exact ⟨freePeer_base b (.inr ⟨hl, rfl, rfl⟩) h1, fun a h => by cases h⟩
        · cases h
          refine ⟨addPeer_base b a ep cl hl hg, ?_⟩
          intro x hx
          cases hx
          rw [live_iff]
          exact ⟨{ newPeer s a ep cl with ep := newEp s ep }, List.mem_append.2 (.inr (List.mem_singleton.2 rfl)), rfl⟩

theorem addOrGet_base {c : Cfg} {hand : List Msg} {o : Or} {ep : Ep} {cl : Bool} {s : St} {r : St × Option Nat} (b : Base c hand s)
    (h : addOrGet c o ep cl s = .ok r) : Base c hand r.1 ∧ (∀ a, r.2 = some a → live r.1 a = true) := by
  unfold addOrGet at h
  split at h
  · rename_i p hp
    cases h
    exact ⟨b, fun a h => by cases h; exact live_iff.2 ⟨p, (getPeer_some hp).1, rfl⟩⟩
  · rename_i hg
    exact addNew_base b hg h

theorem gotten_base {c : Cfg} {hand : List Msg} {s : St} {a : Nat} {m : Msg} (h0 : 0 < c.timeout) (b : Base c (m :: hand) s)
    (hl : live s a = true) : Base c hand (gotten s a m) := by
  obtain ⟨p, hp, rfl⟩ := live_iff.1 hl
  refine base_q (s := set s p.addr fun p => { p with recvq := p.recvq ++ [m], ts := s.clock }) ?_ _ rfl
  refine set_base2 b p hp _ (fun _ => rfl) (fun _ => rfl) (fun _ => .inr ⟨rfl, h0⟩) ?_
  intro x
  simp only [pq, List.count_append, List.count_cons, List.count_nil]
  omega

theorem recvMsg_base {c : Cfg} {hand : List Msg} {o : Or} {m : Msg} {s s' : St} (h0 : 0 < c.timeout) (b : Base c (m :: hand) s)
    (h : recvMsg c o m s = .ok s') : Base c hand s' := by
  unfold recvMsg at h
  obtain ⟨r, h1, h2⟩ := bind_ok h
  have : Base c (m :: hand) r.1 ∧ (∀ a, r.2 = some a → live r.1 a = true) := by
    unfold recvPeer at h1
    split at h1
    · cases h1
      refine ⟨b, ?_⟩
      intro a ha
      dsimp only at ha
      split at ha
      · cases ha
      · rename_i p hp
        split at ha
        · cases ha; exact live_iff.2 ⟨p, (getPeer_some hp).1, rfl⟩
        · cases ha
    · exact addOrGet_base b h1
  cases h2
  split
  · exact unref_base this.1
  · rename_i a ha
    exact gotten_base h0 this.1 (this.2 a ha)

theorem take_base {c : Cfg} {hand : List Msg} {s : St} (b : Base c hand s) (a n : Nat) : Base c hand (take s a n) := by
  unfold take
  split
  · exact b
  · rename_i p hp
    obtain ⟨hm, rfl⟩ := at_some hp
    have h1 : Base c (hand ++ p.recvq.take n) (set s p.addr fun p => { p with recvq := p.recvq.drop n }) := by
      refine set_base2 b p hm _ (fun _ => rfl) (fun _ => rfl) (fun _ => .inl rfl) ?_
      intro x
      simp only [pq, List.count_append]
      have : p.recvq.count x = (p.recvq.take n).count x + (p.recvq.drop n).count x := by
        rw [← List.count_append, List.take_append_drop]
      omega
    refine ⟨h1.nd, h1.pw, ?_, h1.idle, h1.ts⟩
    intro x
    have := h1.cons x
    simp only [List.count_append] at this ⊢
    have e : (set s p.addr fun p => { p with recvq := p.recvq.drop n }).rel = s.rel := rfl
    rw [e] at this
    omega

theorem over_base {c : Cfg} {hand : List Msg} {s : St} (b : Base c hand s) (a : Nat) :
    Base c hand (set s a fun p => { p with over := true }) :=
  set_base b a _ (fun _ => rfl) (fun _ => rfl) (fun _ => rfl) (fun _ => rfl)

theorem handshake_base {c : Cfg} {hand : List Msg} {o : Or} {a : Nat} {s s' : St} (b : Base c hand s)
    (h : handshake c o a s = .ok s') : Base c hand s' := by
  unfold handshake at h
  split at h
  · cases h
  · rename_i p hp
    split at h
    · exact freePeer_base b (.inl (at_some hp).1) h
    · cases h; exact take_base b _ _
    · cases h
      exact base_q (over_base (take_base b a o.taken) a) (.write a) rfl

theorem queueSend_base {c : Cfg} {hand : List Msg} {o : Or} {a : Nat} {m : Msg} {s s' : St} (b : Base c (m :: hand) s)
    (h : queueSend c o a m s = .ok s') : Base c hand s' := by
  unfold queueSend at h
  split at h
  · cases h
  · rename_i p hp
    obtain ⟨hm, rfl⟩ := at_some hp
    split at h
    · cases h; exact unref_base b
    · dsimp only at h
      have hb : Base c hand (if p.sendq.contains m then unref s m else set s p.addr fun p => { p with sendq := p.sendq ++ [m] }) := by
        split
        · exact unref_base b
        · refine set_base2 b p hm _ (fun _ => rfl) (fun _ => rfl) (fun _ => .inl rfl) ?_
          intro x
          simp only [pq, List.count_append, List.count_cons, List.count_nil]
          omega
      generalize (if p.sendq.contains m then unref s m else set s p.addr fun p => { p with sendq := p.sendq ++ [m] }) = s1 at h hb
      split at h
      · cases h; exact hb
      · split at h
        · split at h
          · exact handshake_base hb h
          · cases h; exact hb
          · split at h
            · cases h
            · rename_i p' hp'
              exact freePeer_base hb (.inl (at_some hp').1) h
        · exact handshake_base hb h

theorem freeInvalid_base {c : Cfg} {hand : List Msg} {p : Peer} {s : St} (b : Base c hand s) (hp : p ∈ s.peers) :
    Base c hand (freeInvalid p s) := by
  refine ⟨map_addr_filter_nodup b.nd _, b.pw.sublist List.filter_sublist, ?_, ?_, ?_⟩
  · intro m
    have h1 := b.cons m
    have h3 := free_count b.nd (.inl hp) m
    simp only [freeInvalid, List.count_append]
    omega
  · intro x hx ht
    obtain ⟨h1, h2⟩ := List.mem_filter.1 hx
    obtain ⟨d, hd, h3⟩ := b.idle x h1 ht
    exact ⟨d, List.mem_filter.2 ⟨hd, h2⟩, h3⟩
  · intro x hx
    exact b.ts x (List.mem_filter.1 hx).1

theorem initConn_base {c : Cfg} {hand : List Msg} {o : Or} {m : Msg} {s s' : St} (b : Base c (m :: hand) s)
    (h : initConn c o m s = .ok s') : Base c hand s' := by
  unfold initConn at h
  split at h
  · cases h; exact unref_base b
  · obtain ⟨r, h1, h2⟩ := bind_ok h
    have hb : Base c (m :: hand) r.1 := by
      unfold sendPeer at h1
      split at h1
      · rename_i p hp
        split at h1
        · cases h1; exact b
        · exact (addOrGet_base (freeInvalid_base b (getPeer_some hp).1) h1).1
      · exact (addOrGet_base b h1).1
    split at h2
    · cases h2; exact unref_base hb
    · exact queueSend_base hb h2

theorem wrote_base {c : Cfg} {hand : List Msg} {s : St} {p : Peer} {m : Msg} (h0 : 0 < c.timeout) (b : Base c hand s)
    (hp : p ∈ s.peers) : Base c hand (wrote s p.addr m) := by
  have := set_base2 (h2 := hand) b p hp (fun p => { p with ts := s.clock }) (fun _ => rfl) (fun _ => rfl)
    (fun _ => .inr ⟨rfl, h0⟩) (fun _ => rfl)
  exact ⟨this.nd, this.pw, this.cons, this.idle, this.ts⟩

theorem sendMsg_base {c : Cfg} {hand : List Msg} {o : Or} {m : Msg} {s s' : St} (h0 : 0 < c.timeout) (b : Base c (m :: hand) s)
    (h : sendMsg c o m s = .ok s') : Base c hand s' := by
  unfold sendMsg at h
  split at h
  · exact initConn_base b h
  · rename_i p hp
    split at h
    · exact initConn_base b h
    · split at h
      · cases h; exact unref_base (wrote_base h0 b (getPeer_some hp).1)
      · cases h; exact unref_base b
      · exact freePeer_base (unref_base b) (.inl (getPeer_some hp).1) h

theorem writeLoop_base {c : Cfg} {hand : List Msg} {o : Or} {a : Nat} (h0 : 0 < c.timeout) (l : List Msg) (i : Nat) {s s' : St}
    (b : Base c hand s) (hl : ∃ p ∈ s.peers, p.addr = a ∧ p.sendq = l) (h : writeLoop c o a i l s = .ok s') : Base c hand s' := by
  induction l generalizing i s with
  | nil => cases h; exact b
  | cons m l ih =>
    rw [writeLoop] at h
    obtain ⟨p, hp, rfl, hs⟩ := hl
    have hb : Base c hand (unref (set s p.addr fun p => { p with sendq := l }) m) := by
      refine unref_base (set_base2 b p hp _ (fun _ => rfl) (fun _ => rfl) (fun _ => .inl rfl) ?_)
      intro x
      simp only [pq, List.count_append, hs, List.count_cons]
      omega
    have hin : { p with sendq := l } ∈ (unref (set s p.addr fun p => { p with sendq := l }) m).peers := by
      simp only [unref, set]
      exact List.mem_map.2 ⟨p, hp, by simp⟩
    have ha : ({ p with sendq := l } : Peer).addr = p.addr := rfl
    split at h
    · refine ih _ (wrote_base h0 hb hin) ?_ h
      refine ⟨{ p with sendq := l, ts := s.clock }, ?_, rfl, rfl⟩
      simp only [wrote, set]
      exact List.mem_map.2 ⟨_, hin, by simp [unref]⟩
    · exact ih _ hb ⟨_, hin, rfl, rfl⟩ h
    · split at h
      · cases h
      · rename_i p' hp'
        exact freePeer_base hb (.inl (at_some hp').1) h

theorem writeEv_base {c : Cfg} {hand : List Msg} {o : Or} {a : Nat} {s s' : St} (h0 : 0 < c.timeout) (b : Base c hand s)
    (h : writeEv c o a s = .ok s') : Base c hand s' := by
  unfold writeEv at h
  split at h
  · cases h; exact b
  · rename_i p hp
    exact writeLoop_base h0 _ _ b ⟨p, (at_some hp).1, (at_some hp).2, rfl⟩ h

theorem begun_base {c : Cfg} {hand : List Msg} {o : Or} {a : Nat} {ep : Ep} {s s' : St} (b : Base c hand s)
    (h : begun o a ep s = .ok s') : Base c hand s' := by
  unfold begun at h
  split at h
  · cases h; exact base_q b (.write a) rfl
  · split at h
    · cases h
    · cases h
      split
      · exact ⟨b.nd, b.pw, b.cons, b.idle, b.ts⟩
      · exact b

theorem readEv_base {c : Cfg} {hand : List Msg} {o : Or} {a : Nat} {s s' : St} (b : Base c hand s)
    (h : readEv c o a s = .ok s') : Base c hand s' := by
  unfold readEv at h
  split at h
  · cases h; exact b
  · rename_i p hp
    split at h
    · unfold hsStep at h
      split at h
      · exact freePeer_base b (.inl (at_some hp).1) h
      · cases h; exact take_base b _ _
      · dsimp only at h
        obtain ⟨s1, h1, h2⟩ := bind_ok h
        exact begun_base (work_base _ _ (over_base (take_base b p.addr o.taken) p.addr) h1) h2
    · split at h
      · cases h
        have := take_base b a o.taken
        exact ⟨this.nd, this.pw, this.cons, this.idle, this.ts⟩
      · cases h; exact take_base b _ _
      · exact freePeer_base b (.inl (at_some hp).1) h

theorem handle_base {c : Cfg} {hand : List Msg} {o : Or} {e : Ev} {s s' : St} (h0 : 0 < c.timeout) (b : Base c (evMsgs e ++ hand) s)
    (h : handle c o e s = .ok s') : Base c hand s' := by
  cases e with
  | recv m => exact recvMsg_base h0 b h
  | send m => exact sendMsg_base h0 b h
  | timer => exact work_base _ _ b h
  | read a => exact readEv_base b h
  | write a => exact writeEv_base h0 b h
  | closeAll d => exact work_base _ _ b h

/-! ### The callbacks for inactivity -/

/-- The entries of others may be changed. -/
theorem inact_base {c : Cfg} {hand : List Msg} {s : St} (b : Base c hand s) (i : List (Nat × Nat))
    (h : ∀ p ∈ s.peers, p.ep.tcp = false → ∀ d, (p.addr, d) ∈ s.inact → d ≤ s.clock + c.timeout →
      (p.ts = 0 ∨ d < p.ts + 2 * c.timeout) →
      ∃ d, (p.addr, d) ∈ i ∧ d ≤ s.clock + c.timeout ∧ (p.ts = 0 ∨ d < p.ts + 2 * c.timeout)) :
    Base c hand { s with inact := i } := by
  refine ⟨b.nd, b.pw, b.cons, ?_, b.ts⟩
  intro p hp ht
  obtain ⟨d, h1, h2, h3⟩ := b.idle p hp ht
  exact h p hp ht d h1 h2 h3

theorem work_sub {c : Cfg} {o : Or} (n : Nat) (ts : List Task) {s s' : St} (h : work c o n ts s = .ok s') :
    (∀ p ∈ s'.peers, ∃ q ∈ s.peers, q.addr = p.addr ∧ q.ep = p.ep ∧ q.ts = p.ts ∧ q.doc = p.doc ∧ q.client = p.client) ∧
      s'.clock = s.clock ∧ (∀ x ∈ s'.inact, x ∈ s.inact) := by
  have hid : ∀ s : St, (∀ p ∈ s.peers, ∃ q ∈ s.peers, q.addr = p.addr ∧ q.ep = p.ep ∧ q.ts = p.ts ∧ q.doc = p.doc ∧ q.client = p.client) ∧
      s.clock = s.clock ∧ (∀ x ∈ s.inact, x ∈ s.inact) :=
    fun s => ⟨fun p hp => ⟨p, hp, rfl, rfl, rfl, rfl, rfl⟩, rfl, fun x h => h⟩
  have hfc : ∀ {p : Peer} {f : Bool} {s s' : St}, freeCore p false f s = .ok s' →
      (∀ p ∈ s'.peers, ∃ q ∈ s.peers, q.addr = p.addr ∧ q.ep = p.ep ∧ q.ts = p.ts ∧ q.doc = p.doc ∧ q.client = p.client) ∧
      s'.clock = s.clock ∧ (∀ x ∈ s'.inact, x ∈ s.inact) := by
    intro p f s s' h
    obtain ⟨e1, e2, e3, -⟩ := freeCore_eff h
    refine ⟨?_, e3, ?_⟩
    · intro x hx
      rw [e1] at hx
      exact ⟨x, (List.mem_filter.1 hx).1, rfl, rfl, rfl, rfl, rfl⟩
    · intro x hx
      rw [e2] at hx
      exact (List.mem_filter.1 hx).1
  have hst : ∀ {s : St} {t : Task} {r : St × List Task}, stepTask c o s t = .ok r →
      (∀ p ∈ r.1.peers, ∃ q ∈ s.peers, q.addr = p.addr ∧ q.ep = p.ep ∧ q.ts = p.ts ∧ q.doc = p.doc ∧ q.client = p.client) ∧
      r.1.clock = s.clock ∧ (∀ x ∈ r.1.inact, x ∈ s.inact) := by
    intro s t r h
    cases t with
    | conn ep fr =>
      rw [stepTask] at h
      split at h
      · cases h; exact hid s
      · obtain ⟨s1, h1, h2⟩ := bind_ok h
        cases h2; exact hfc h1
    | rm ep n =>
      rw [stepTask] at h
      split at h
      · obtain ⟨s1, h1, h2⟩ := bind_ok h
        cases h2
        unfold dropEvents at h1
        obtain ⟨r1, h3, h4⟩ := bind_ok h1
        cases h4; exact hid s
      · obtain ⟨s1, h1, h2⟩ := bind_ok h
        cases h2; exact hfc h1
    | scan nx d =>
      cases nx with
      | none => rw [stepTask] at h; cases h; exact hid s
      | some a =>
        rw [stepTask] at h
        split at h
        · cases h
        · split at h <;> (cases h; exact hid s)
    | retry nx =>
      cases nx with
      | none => rw [stepTask] at h; cases h; exact hid s
      | some a =>
        rw [stepTask] at h
        split at h
        · cases h
        · split at h
          · cases h; exact hid s
          · split at h
            · cases h; exact hid s
            · cases h; exact hid s
            · cases h
              refine ⟨?_, rfl, fun x h => h⟩
              intro p hp
              obtain ⟨x, hx, rfl⟩ := List.mem_map.1 hp
              refine ⟨x, hx, ?_⟩
              split <;> exact ⟨rfl, rfl, rfl, rfl, rfl⟩
            · obtain ⟨s1, h1, h2⟩ := bind_ok h
              cases h2; exact hfc h1
    | pop =>
      rw [stepTask] at h
      split at h
      · cases h; exact hid s
      · obtain ⟨s1, h1, h2⟩ := bind_ok h
        cases h2; exact hfc h1
  induction n generalizing ts s with
  | zero =>
    cases ts with
    | nil => cases h; exact hid _
    | cons t ts => cases h
  | succ n ih =>
    cases ts with
    | nil => cases h; exact hid _
    | cons t ts =>
      rw [work] at h
      obtain ⟨r, h1, h2⟩ := bind_ok h
      obtain ⟨a1, a2, a3⟩ := ih _ h2
      obtain ⟨b1, b2, b3⟩ := hst h1
      refine ⟨?_, a2.trans b2, fun x hx => b3 x (a3 x hx)⟩
      intro p hp
      obtain ⟨q, hq, e1, e2, e3, e4, e5⟩ := a1 p hp
      obtain ⟨q', hq', f1, f2, f3, f4, f5⟩ := b1 q hq
      exact ⟨q', hq', f1.trans e1, f2.trans e2, f3.trans e3, f4.trans e4, f5.trans e5⟩

theorem freePeer_sub {c : Cfg} {o : Or} {p : Peer} {i f n : Bool} {s s' : St} (h : freePeer c o p i f n s = .ok s') :
    (∀ x ∈ s'.peers, x.addr ≠ p.addr ∧
      ∃ q ∈ s.peers, q.addr = x.addr ∧ q.ep = x.ep ∧ q.ts = x.ts ∧ q.doc = x.doc ∧ q.client = x.client) ∧
      s'.clock = s.clock ∧ (∀ x ∈ s'.inact, x ∈ s.inact) := by
  unfold freePeer at h
  obtain ⟨s1, h1, h2⟩ := bind_ok h
  obtain ⟨e1, e2, e3, -⟩ := freeCore_eff h1
  obtain ⟨a1, a2, a3⟩ := work_sub _ _ h2
  refine ⟨?_, a2.trans e3, ?_⟩
  · intro x hx
    obtain ⟨q, hq, f1, f2⟩ := a1 x hx
    rw [e1] at hq
    obtain ⟨g1, g2⟩ := List.mem_filter.1 hq
    refine ⟨?_, q, g1, f1, f2⟩
    rw [← f1]
    simpa using g2
  · intro x hx
    have := a3 x hx
    rw [e2] at this
    split at this
    · exact this
    · exact (List.mem_filter.1 this).1

theorem inactLoop_base {c : Cfg} {hand : List Msg} {o : Or} (l : List (Nat × Nat)) {s s' : St} (b : Base c hand s)
    (h : inactLoop c o l s = .ok s') : Base c hand s' := by
  induction l generalizing s with
  | nil => cases h; exact b
  | cons x l ih =>
    rw [inactLoop] at h
    split at h
    · exact ih b h
    · split at h
      · rename_i hn
        refine ih (inact_base b _ ?_) h
        intro p hp ht d h1 h2 h3
        refine ⟨d, List.mem_filter.2 ⟨h1, ?_⟩, h2, h3⟩
        have : p.addr ≠ x.1 := by
          intro e
          have := at_mem b.nd hp
          rw [e, hn] at this
          cases this
        simpa using this
      · rename_i q hq
        obtain ⟨hq1, hq2⟩ := at_some hq
        split at h
        · rename_i hi
          refine ih (inact_base b _ ?_) h
          intro p hp ht d h1 h2 h3
          by_cases e : p.addr = x.1
          · have : p = q := nodup_eq b.nd hp hq1 (e.trans hq2.symm)
            subst this
            refine ⟨s.clock + c.timeout, List.mem_map.2 ⟨(p.addr, d), h1, by simp [e]⟩, Nat.le_refl _, ?_⟩
            right; have := b.ts p hp; omega
          · exact ⟨d, List.mem_map.2 ⟨(p.addr, d), h1, by simp [e]⟩, h2, h3⟩
        · obtain ⟨s1, h1, h2⟩ := bind_ok h
          have b1 := freePeer_base b (.inl hq1) h1
          refine ih (inact_base b1 _ ?_) h2
          intro p hp ht d g1 g2 g3
          refine ⟨d, List.mem_filter.2 ⟨g1, ?_⟩, g2, g3⟩
          have := ((freePeer_sub h1).1 p hp).1
          rw [hq2] at this
          simpa using this

theorem step_base {c : Cfg} {s s' : St} {op : Op} (h0 : 0 < c.timeout) (b : Base c [] s) (h : step c s op = .ok s') : Base c [] s' := by
  cases op with
  | net m =>
    cases h
    refine ⟨b.nd, b.pw, ?_, b.idle, b.ts⟩
    intro x
    have := b.cons x
    simp only [List.flatMap_append, List.flatMap_cons, List.flatMap_nil, evMsgs, List.count_append, List.count_cons, List.count_nil] at this ⊢
    omega
  | req m =>
    cases h
    refine ⟨b.nd, b.pw, ?_, b.idle, b.ts⟩
    intro x
    have := b.cons x
    simp only [List.flatMap_append, List.flatMap_cons, List.flatMap_nil, evMsgs, List.count_append, List.count_cons, List.count_nil] at this ⊢
    omega
  | timer => cases h; exact base_q b .timer rfl
  | reset d => cases h; exact base_q b (.closeAll d) rfl
  | run o =>
    rw [step] at h
    split at h
    · cases h; exact b
    · rename_i e l he
      refine handle_base h0 ?_ h
      refine ⟨b.nd, b.pw, ?_, b.idle, b.ts⟩
      intro x
      have := b.cons x
      rw [he] at this
      simp only [List.flatMap_cons, List.count_append, List.count_nil, List.append_nil] at this ⊢
      omega
  | tick now o =>
    rw [step] at h
    dsimp only at h
    refine inactLoop_base _ ?_ h
    refine ⟨b.nd, b.pw, b.cons, ?_, ?_⟩
    · intro p hp ht
      obtain ⟨d, h1, h2, h3⟩ := b.idle p hp ht
      exact ⟨d, h1, by dsimp only; omega, h3⟩
    · intro p hp
      have := b.ts p hp
      dsimp only
      omega
  | add ep o =>
    rw [step] at h
    obtain ⟨r, h1, h2⟩ := bind_ok h
    cases h2
    exact (addOrGet_base b h1).1
  | close ep => exact work_base _ _ b h
  | remove ep n => exact work_base _ _ b h
  | closeAll => exact work_base _ _ b h
  | shutdown => exact work_base _ _ b h
  | asserted a =>
    rw [step] at h
    split at h
    · cases h
      have := base_q b (.write a) rfl
      exact ⟨this.nd, this.pw, this.cons, this.idle, this.ts⟩
    · cases h; exact b
  | state d x y => cases h; exact ⟨b.nd, b.pw, b.cons, b.idle, b.ts⟩

theorem init_base (c : Cfg) (dos : Nat → Dos) (oxm : Nat → Bool) : Base c [] (init dos oxm) :=
  ⟨by simp [init], by simp [init], by intro m; simp [init], by simp [init], by simp [init]⟩

theorem run_base {c : Cfg} (h0 : 0 < c.timeout) (ops : List Op) {s s' : St} (b : Base c [] s) (h : run c s ops = .ok s') :
    Base c [] s' := by
  induction ops generalizing s with
  | nil => cases h; exact b
  | cons op ops ih =>
    rw [run] at h
    obtain ⟨s1, h1, h2⟩ := bind_ok h
    exact ih (step_base h0 b h1) h2

end Verif.TlsPeers
