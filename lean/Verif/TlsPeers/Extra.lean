import Verif.TlsPeers.Close

/-! Onboarding, inactivity and writing, area TlsPeers. -/

namespace Verif.TlsPeers

open Spec

/-! ### While a device waits for its owner -/

/-- The peers are some of those before. -/
def Sub (s s' : St) : Prop := ∀ p ∈ s'.peers, ∃ q ∈ s.peers, q.addr = p.addr ∧ q.ep = p.ep

/-- A device keeps its state, and in RFOTM its single session. -/
def G (d : Nat) (s s' : St) : Prop := s'.dos d = s.dos d ∧ (s.dos d = .rfotm → One s d → One s' d)

theorem G.refl (d : Nat) (s : St) : G d s s := ⟨rfl, fun _ h => h⟩

theorem G.trans {d : Nat} {a b c : St} (h : G d a b) (k : G d b c) : G d a c :=
  ⟨k.1.trans h.1, fun x y => k.2 (h.1.trans x) (h.2 x y)⟩

theorem G.sub {d : Nat} {s s' : St} (h : Sub s s') (e : s'.dos = s.dos) : G d s s' := by
  refine ⟨by rw [e], fun _ ho p hp q hq hpd hqd => ?_⟩
  obtain ⟨p', hp', e1, e2⟩ := h p hp
  obtain ⟨q', hq', e3, e4⟩ := h q hq
  rw [← e1, ← e3]
  exact ho p' hp' q' hq' (by rw [e2]; exact hpd) (by rw [e4]; exact hqd)

theorem sub_set {s : St} (a : Nat) (f : Peer → Peer) (hf : ∀ p, (f p).addr = p.addr ∧ (f p).ep = p.ep) : Sub s (set s a f) := by
  intro p hp
  obtain ⟨q, hq, rfl⟩ := List.mem_map.1 hp
  refine ⟨q, hq, ?_⟩
  split <;> simp [hf]

theorem stepTask_dos {c : Cfg} {o : Or} {s : St} {t : Task} {r : St × List Task} (h : stepTask c o s t = .ok r) : r.1.dos = s.dos := by
  have hf : ∀ {p : Peer} {fr : Bool} {f : St → St × List Task}, (freeCore p false fr s).bind (fun s' => .ok (f s')) = .ok r →
      (∀ s', (f s').1 = s') → r.1.dos = s.dos := by
    intro p fr f h hf
    obtain ⟨s', h1, h2⟩ := bind_ok h
    cases h2
    rw [hf, (freeCore_eff h1).2.2.2.2.1]
  cases t with
  | conn ep fr =>
    rw [stepTask] at h
    split at h
    · cases h; rfl
    · exact hf (f := fun s' => (s', _)) h (fun _ => rfl)
  | rm ep n =>
    rw [stepTask] at h
    split at h
    · obtain ⟨s', h1, h2⟩ := bind_ok h
      cases h2
      exact (dropEvents_eff h1).2.2.1
    · exact hf (f := fun s' => (s', _)) h (fun _ => rfl)
  | scan nx d =>
    cases nx with
    | none => cases h; rfl
    | some a =>
      rw [stepTask] at h
      split at h
      · cases h
      · split at h <;> (cases h; rfl)
  | retry nx =>
    cases nx with
    | none => cases h; rfl
    | some a =>
      rw [stepTask] at h
      split at h
      · cases h
      · split at h
        · cases h; rfl
        · split at h
          · cases h; rfl
          · cases h; rfl
          · cases h; rfl
          · exact hf (f := fun s' => (s', _)) h (fun _ => rfl)
  | pop =>
    rw [stepTask] at h
    split at h
    · cases h; rfl
    · exact hf (f := fun s' => (s', _)) h (fun _ => rfl)

theorem work_G {c : Cfg} {o : Or} {d : Nat} (n : Nat) (ts : List Task) {s s' : St} (h : work c o n ts s = .ok s') : G d s s' := by
  refine G.sub (fun p hp => ?_) ?_
  · obtain ⟨q, hq, h1, h2, -⟩ := (work_sub n ts h).1 p hp
    exact ⟨q, hq, h1, h2⟩
  · induction n generalizing ts s with
    | zero => cases ts with
      | nil => cases h; rfl
      | cons t ts => cases h
    | succ n ih => cases ts with
      | nil => cases h; rfl
      | cons t ts =>
        rw [work] at h
        obtain ⟨r, h1, h2⟩ := bind_ok h
        exact (ih _ h2).trans (stepTask_dos h1)

theorem freePeer_G {c : Cfg} {o : Or} {d : Nat} {p : Peer} {i f n : Bool} {s s' : St} (h : freePeer c o p i f n s = .ok s') : G d s s' := by
  unfold freePeer at h
  obtain ⟨s1, h1, h2⟩ := bind_ok h
  have e := freeCore_eff h1
  refine G.trans (G.sub (fun x hx => ?_) e.2.2.2.2.1) (work_G _ _ h2)
  rw [e.1] at hx
  exact ⟨x, (List.mem_filter.1 hx).1, rfl, rfl⟩

theorem addNew_G {c : Cfg} {o : Or} {d : Nat} {ep : Ep} {cl : Bool} {s : St} {r : St × Option Nat} (h : addNew c o ep cl s = .ok r) : G d s r.1 := by
  unfold addNew at h
  split at h
  · cases h; exact G.refl _ _
  · rename_i hr
    split at h
    · cases h; exact G.refl _ _
    · split at h
      · cases h; exact G.refl _ _
      · split at h
        · obtain ⟨s', h1, h2⟩ := bind_ok h
          cases h2
          exact freePeer_G h1
        · cases h
          refine ⟨rfl, fun hd ho p hp q hq hpd hqd => ?_⟩
          have hnew := newEp_tcp s ep
          have hold : ∀ x ∈ s.peers, x.ep.dev = d → ep.dev ≠ d := by
            intro x hx hxd e
            apply hr
            rw [e, hd]
            have : numPeers s d ≠ 0 := by
              unfold numPeers
              intro h0
              rw [List.length_eq_zero_iff, List.filter_eq_nil_iff] at h0
              exact h0 x hx (by simpa using hxd)
            simp [this]
          rcases List.mem_append.1 hp with hp | hp <;> rcases List.mem_append.1 hq with hq | hq
          · exact ho p hp q hq hpd hqd
          · rw [List.mem_singleton.1 hq] at hqd
            exact absurd (hnew.2 ▸ hqd) (hold p hp hpd)
          · rw [List.mem_singleton.1 hp] at hpd
            exact absurd (hnew.2 ▸ hpd) (hold q hq hqd)
          · rw [List.mem_singleton.1 hp, List.mem_singleton.1 hq]

theorem addOrGet_G {c : Cfg} {o : Or} {d : Nat} {ep : Ep} {cl : Bool} {s : St} {r : St × Option Nat} (h : addOrGet c o ep cl s = .ok r) :
    G d s r.1 := by
  unfold addOrGet at h
  split at h
  · cases h; exact G.refl _ _
  · exact addNew_G h

theorem take_G {d : Nat} {s : St} (a n : Nat) : G d s (take s a n) := by
  unfold take
  split
  · exact G.refl d s
  · exact G.sub (sub_set a (fun p => { p with recvq := p.recvq.drop n }) (fun _ => ⟨rfl, rfl⟩)) rfl

theorem over_G {d : Nat} {s : St} (a : Nat) (q : List Ev) : G d s { set s a fun p => { p with over := true } with q := q } :=
  G.sub (sub_set a (fun p => { p with over := true }) (fun _ => ⟨rfl, rfl⟩)) rfl

theorem handshake_G {c : Cfg} {o : Or} {d a : Nat} {s s' : St} (h : handshake c o a s = .ok s') : G d s s' := by
  unfold handshake at h
  split at h
  · cases h
  · split at h
    · exact freePeer_G h
    · cases h; exact take_G _ _
    · cases h; exact G.trans (take_G _ _) (over_G _ _)

theorem queueSend_G {c : Cfg} {o : Or} {d a : Nat} {m : Msg} {s s' : St} (h : queueSend c o a m s = .ok s') : G d s s' := by
  unfold queueSend at h
  split at h
  · cases h
  · rename_i p hp
    split at h
    · cases h; exact G.sub (fun p hp => ⟨p, hp, rfl, rfl⟩) rfl
    · have hs : ∀ x : St, x = (if p.sendq.contains m then unref s m else set s a fun p => { p with sendq := p.sendq ++ [m] }) → G d s x := by
        intro x hx
        subst hx
        split
        · exact G.sub (fun p hp => ⟨p, hp, rfl, rfl⟩) rfl
        · exact G.sub (sub_set a (fun p => { p with sendq := p.sendq ++ [m] }) (fun _ => ⟨rfl, rfl⟩)) rfl
      dsimp only at h
      generalize (if p.sendq.contains m then unref s m else set s a fun p => { p with sendq := p.sendq ++ [m] }) = x at hs h
      have hs := hs x rfl
      split at h
      · cases h; exact hs
      · split at h
        · split at h
          · exact hs.trans (handshake_G h)
          · cases h; exact hs
          · split at h
            · cases h
            · exact hs.trans (freePeer_G h)
        · exact hs.trans (handshake_G h)

theorem sendPeer_G {c : Cfg} {o : Or} {d : Nat} {ep : Ep} {s : St} {r : St × Option Nat} (h : sendPeer c o ep s = .ok r) : G d s r.1 := by
  unfold sendPeer at h
  split at h
  · split at h
    · cases h; exact G.refl _ _
    · exact G.trans (G.sub (s' := freeInvalid _ s) (fun p hp => ⟨p, (List.mem_filter.1 hp).1, rfl, rfl⟩) rfl) (addOrGet_G h)
  · exact addOrGet_G h

theorem initConn_G {c : Cfg} {o : Or} {d : Nat} {m : Msg} {s s' : St} (h : initConn c o m s = .ok s') : G d s s' := by
  unfold initConn at h
  split at h
  · cases h; exact G.sub (fun p hp => ⟨p, hp, rfl, rfl⟩) rfl
  · obtain ⟨r, h1, h2⟩ := bind_ok h
    refine (sendPeer_G h1).trans ?_
    split at h2
    · cases h2; exact G.sub (fun p hp => ⟨p, hp, rfl, rfl⟩) rfl
    · exact queueSend_G h2

theorem wrote_G {d : Nat} {s : St} (a : Nat) (m : Msg) : G d s (wrote s a m) :=
  G.sub (sub_set (s := s) a (fun p => { p with ts := s.clock }) (fun _ => ⟨rfl, rfl⟩)) rfl

theorem unref_G {d : Nat} {s : St} (m : Msg) : G d s (unref s m) := G.sub (fun p hp => ⟨p, hp, rfl, rfl⟩) rfl

theorem sendMsg_G {c : Cfg} {o : Or} {d : Nat} {m : Msg} {s s' : St} (h : sendMsg c o m s = .ok s') : G d s s' := by
  unfold sendMsg at h
  split at h
  · exact initConn_G h
  · split at h
    · exact initConn_G h
    · split at h
      · cases h; exact (wrote_G _ _).trans (unref_G _)
      · cases h; exact unref_G _
      · exact (unref_G _).trans (freePeer_G h)

theorem writeLoop_G {c : Cfg} {o : Or} {d a : Nat} (l : List Msg) (i : Nat) {s s' : St} (h : writeLoop c o a i l s = .ok s') : G d s s' := by
  induction l generalizing i s with
  | nil => cases h; exact G.refl _ _
  | cons m l ih =>
    rw [writeLoop] at h
    have hs : G d s (unref (set s a fun p => { p with sendq := l }) m) :=
      (G.sub (sub_set a (fun p => { p with sendq := l }) (fun _ => ⟨rfl, rfl⟩)) rfl).trans (unref_G _)
    split at h
    · exact hs.trans ((wrote_G _ _).trans (ih _ h))
    · exact hs.trans (ih _ h)
    · split at h
      · cases h
      · exact hs.trans (freePeer_G h)

theorem readEv_G {c : Cfg} {o : Or} {d a : Nat} {s s' : St} (h : readEv c o a s = .ok s') : G d s s' := by
  unfold readEv at h
  split at h
  · cases h; exact G.refl _ _
  · split at h
    · unfold hsStep at h
      split at h
      · exact freePeer_G h
      · cases h; exact take_G _ _
      · dsimp only at h
        obtain ⟨s1, h1, h2⟩ := bind_ok h
        refine (take_G _ _).trans ((over_G _ _).trans ((work_G _ _ h1).trans ?_))
        unfold begun at h2
        split at h2
        · cases h2; exact G.sub (fun p hp => ⟨p, hp, rfl, rfl⟩) rfl
        · split at h2
          · cases h2
          · cases h2
            split
            · exact G.sub (fun p hp => ⟨p, hp, rfl, rfl⟩) rfl
            · exact G.refl _ _
    · split at h
      · cases h
        exact (take_G _ _).trans (G.sub (fun p hp => ⟨p, hp, rfl, rfl⟩) rfl)
      · cases h; exact take_G _ _
      · exact freePeer_G h

theorem recvMsg_G {c : Cfg} {o : Or} {d : Nat} {m : Msg} {s s' : St} (h : recvMsg c o m s = .ok s') : G d s s' := by
  unfold recvMsg at h
  obtain ⟨r, h1, h2⟩ := bind_ok h
  have : G d s r.1 := by
    unfold recvPeer at h1
    split at h1
    · cases h1; exact G.refl d s
    · exact addOrGet_G h1
  refine this.trans ?_
  cases h2
  split
  · exact unref_G _
  · rename_i a _
    exact G.sub (sub_set (s := r.1) a (fun p => { p with recvq := p.recvq ++ [m], ts := r.1.clock }) (fun _ => ⟨rfl, rfl⟩)) rfl

theorem inactLoop_G {c : Cfg} {o : Or} {d : Nat} (l : List (Nat × Nat)) {s s' : St} (h : inactLoop c o l s = .ok s') : G d s s' := by
  have hi : ∀ (s : St) (i : List (Nat × Nat)), G d s { s with inact := i } := fun s i => G.sub (fun p hp => ⟨p, hp, rfl, rfl⟩) rfl
  induction l generalizing s with
  | nil => cases h; exact G.refl _ _
  | cons x l ih =>
    rw [inactLoop] at h
    split at h
    · exact ih h
    · split at h
      · exact (hi _ _).trans (ih h)
      · split at h
        · exact (hi _ _).trans (ih h)
        · obtain ⟨s1, h1, h2⟩ := bind_ok h
          exact (freePeer_G h1).trans ((hi _ _).trans (ih h2))

theorem step_G {c : Cfg} {d : Nat} {s s' : St} {op : Op} (hop : ∀ x y, op ≠ .state d x y) (h : step c s op = .ok s') : G d s s' := by
  have hsame : ∀ {s s' : St}, s'.peers = s.peers → s'.dos = s.dos → G d s s' :=
    fun h1 h2 => G.sub (fun p hp => ⟨p, h1 ▸ hp, rfl, rfl⟩) h2
  cases op with
  | net m => cases h; exact hsame rfl rfl
  | req m => cases h; exact hsame rfl rfl
  | timer => cases h; exact hsame rfl rfl
  | reset d => cases h; exact hsame rfl rfl
  | run o =>
    rw [step] at h
    split at h
    · cases h; exact G.refl _ _
    · rename_i e l hs
      have h0 : G d s { s with q := l } := hsame rfl rfl
      refine h0.trans ?_
      cases e with
      | recv m => exact recvMsg_G h
      | send m => exact sendMsg_G h
      | timer => exact work_G _ _ h
      | read a => exact readEv_G h
      | write a =>
        have h : writeEv c o a { s with q := l } = .ok s' := h
        unfold writeEv at h
        split at h
        · cases h; exact G.refl _ _
        · exact writeLoop_G _ _ h
      | closeAll d => exact work_G _ _ h
  | tick now o =>
    rw [step] at h
    exact G.trans (b := { s with clock := max s.clock now }) (hsame rfl rfl) (inactLoop_G _ h)
  | add ep o =>
    rw [step] at h
    obtain ⟨r, h1, h2⟩ := bind_ok h
    cases h2
    exact addOrGet_G h1
  | close ep => exact work_G _ _ h
  | remove ep n => exact work_G _ _ h
  | closeAll => exact work_G _ _ h
  | shutdown => exact work_G _ _ h
  | asserted a =>
    rw [step] at h
    split at h
    · cases h; exact hsame rfl rfl
    · cases h; exact G.refl _ _
  | state e x y =>
    cases h
    have hne : d ≠ e := fun e' => hop x y (by rw [e'])
    refine ⟨?_, fun _ ho => ho⟩
    simp [hne]

/-! ### Inactivity -/

theorem inactLoop_due {c : Cfg} {o : Or} (h0 : 0 < c.timeout) (l : List (Nat × Nat)) {s s' : St} (h : inactLoop c o l s = .ok s')
    (hl : ∀ x ∈ s.inact, x.2 ≤ s.clock → x ∈ l) : s'.clock = s.clock ∧ ∀ x ∈ s'.inact, s.clock < x.2 := by
  induction l generalizing s with
  | nil =>
    cases h
    refine ⟨rfl, fun x hx => ?_⟩
    rcases Nat.lt_or_ge s'.clock x.2 with h | h
    · exact h
    · cases hl x hx h
  | cons y l ih =>
    rw [inactLoop] at h
    have htl : ∀ x ∈ s.inact, x.2 ≤ s.clock → x ≠ y → x ∈ l := fun x hx hd hn =>
      (List.mem_cons.1 (hl x hx hd)).resolve_left hn
    split at h
    · rename_i hc
      refine ih h fun x hx hd => htl x hx hd ?_
      intro e
      subst e
      simp [hx] at hc
    · split at h
      · have hi := ih h
        refine hi fun x hx hd => ?_
        obtain ⟨hx, hxa⟩ := List.mem_filter.1 hx
        exact htl x hx hd fun e => by simp [e] at hxa
      · split at h
        · have hi := ih h
          refine hi fun x hx hd => ?_
          obtain ⟨z, hz, rfl⟩ := List.mem_map.1 hx
          split at hd
          · dsimp only at hd; omega
          · rename_i hne
            rw [if_neg hne]
            exact htl z hz hd fun e => hne (by simp [e])
        · obtain ⟨s1, h1, h2⟩ := bind_ok h
          obtain ⟨-, e1, e2⟩ := freePeer_sub h1
          have := ih h2 (by
            intro x hx hd
            obtain ⟨hx, hxa⟩ := List.mem_filter.1 hx
            exact htl x (e2 x hx) (by rw [← e1]; exact hd) fun e => by simp [e] at hxa)
          exact ⟨this.1.trans e1, by rw [← e1]; exact this.2⟩

/-- A session that was used lately stays. -/
theorem inactLoop_kept {c : Cfg} {hand : List Msg} {o : Or} (hq : Quiet c) (l : List (Nat × Nat)) {s s' : St} (b : Base c hand s)
    (h : inactLoop c o l s = .ok s') (p : Peer) (hp : p ∈ s.peers) (ht : s.clock - p.ts < c.timeout) : p ∈ s'.peers := by
  induction l generalizing s with
  | nil => cases h; exact hp
  | cons x l ih =>
    have hstep : ∀ s1, inactLoop c o [x] s = .ok s1 → Base c hand s1 := fun s1 h => inactLoop_base [x] b h
    rw [inactLoop] at h hstep
    split at h
    · exact ih b h hp ht
    · rename_i hc
      rw [if_neg hc] at hstep
      split at h
      · rename_i hat
        rw [hat] at hstep
        exact ih (hstep _ rfl) h hp ht
      · rename_i q hat
        rw [hat] at hstep
        dsimp only at hstep
        split at h
        · rename_i hlt
          rw [if_pos hlt] at hstep
          exact ih (hstep _ rfl) h hp ht
        · rename_i hlt
          rw [if_neg hlt] at hstep
          obtain ⟨s1, h1, h2⟩ := bind_ok h
          rw [h1] at hstep
          have e1 := (freePeer_sub h1).2.1
          refine ih (hstep _ rfl) h2 ?_ (by rw [show ({ s1 with inact := s1.inact.filter fun y => y.1 != x.1 } : St).clock = s1.clock from rfl, e1]; exact ht)
          show p ∈ s1.peers
          unfold freePeer at h1
          obtain ⟨s2, g1, g2⟩ := bind_ok h1
          obtain ⟨hqm, -⟩ := at_some hat
          have e2 := (freeCore_eff g1).1
          have hne : p ≠ q := fun e => hlt (e ▸ ht)
          refine close_kept hq _ _ notified_closes g2 (by rw [e2]; exact map_addr_filter_nodup b.nd _)
            (by rw [e2]; exact b.pw.sublist List.filter_sublist) p ?_ ?_
          · rw [e2]
            refine List.mem_filter.2 ⟨hp, ?_⟩
            have : p.addr ≠ q.addr := fun e => hne (nodup_eq b.nd hp hqm e)
            simpa using this
          · intro t ht'
            rcases quiet_notified hq q.ep true with e | e <;> rw [e] at ht'
            · cases ht'
            · rw [List.mem_singleton.1 ht']
              intro ep he
              rw [List.mem_singleton.1 he]
              cases hm : eqEp p.ep q.ep with
              | false => rfl
              | true => exact absurd (pairwise_ne b.pw hp hqm hm) hne

/-! ### Writing -/

theorem writeLoop_flush {c : Cfg} {o : Or} {a : Nat} (hio : ∀ i, o.io i = .done) (l : List Msg) (i : Nat) (s : St) (p : Peer)
    (hp : p ∈ s.peers) (ha : p.addr = a) (hl : p.sendq = l) :
    ∃ s', writeLoop c o a i l s = .ok s' ∧ s'.out = s.out ++ l ∧ s'.rel = s.rel ++ l ∧ s'.q = s.q ∧
      (∃ q ∈ s'.peers, q.addr = a ∧ q.ep = p.ep ∧ q.sendq = [] ∧ q.recvq = p.recvq ∧ q.over = p.over) ∧
      s'.peers.filter (fun x => x.addr != a) = s.peers.filter (fun x => x.addr != a) := by
  have hset : ∀ (s : St) (f : Peer → Peer), (∀ p, (f p).addr = p.addr) →
      (set s a f).peers.filter (fun x => x.addr != a) = s.peers.filter (fun x => x.addr != a) := by
    intro s f hf
    simp only [set]
    induction s.peers with
    | nil => rfl
    | cons x l ih =>
      rw [List.map_cons, List.filter_cons, List.filter_cons, ih]
      by_cases e : x.addr = a
      · simp [e, hf]
      · simp [e]
  induction l generalizing i s p with
  | nil => exact ⟨s, rfl, by simp, by simp, rfl, ⟨p, hp, ha, rfl, hl, rfl, rfl⟩, rfl⟩
  | cons m l ih =>
    rw [writeLoop, hio i]
    dsimp only
    obtain ⟨s', h1, h2, h3, h4, h5, h6⟩ := ih (i + 1) (wrote (unref (set s a fun p => { p with sendq := l }) m) a m)
      { p with sendq := l, ts := s.clock } (by
        refine List.mem_map.2 ⟨{ p with sendq := l }, List.mem_map.2 ⟨p, hp, by simp [ha]⟩, by simp [ha, unref, set]⟩) ha rfl
    refine ⟨s', h1, ?_, ?_, h4, h5, ?_⟩
    · rw [h2]; simp [wrote, unref, set]
    · rw [h3]; simp [wrote, unref, set]
    · rw [h6]
      have e1 := hset (unref (set s a fun p => { p with sendq := l }) m)
        (fun p => { p with ts := (unref (set s a fun p => { p with sendq := l }) m).clock }) (fun _ => rfl)
      have e2 := hset s (fun p => { p with sendq := l }) (fun _ => rfl)
      exact e1.trans e2

end Verif.TlsPeers
