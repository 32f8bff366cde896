import Verif.TlsPeers.SafeRun

/-! What closing sessions leaves, area TlsPeers. -/

namespace Verif.TlsPeers

open Spec

/-- The task closes the sessions of an endpoint. -/
def closes : Task → Prop
  | .conn _ _ => True
  | .rm _ _ => True
  | _ => False

/-- No message of an endpoint waits. -/
def NoMsg (s : St) (ep : Ep) : Prop :=
  (∀ m, (Ev.recv m ∈ s.q ∨ Ev.send m ∈ s.q) → eqEp m.ep ep = false) ∧ ∀ e ∈ s.ups, eqEp e ep = false

theorem keeps_msg {mem : Nat → Option Ep} {ep : Ep} {m : Msg} :
    (keeps mem ep (.recv m) = true → eqEp m.ep ep = false) ∧ (keeps mem ep (.send m) = true → eqEp m.ep ep = false) := by
  constructor <;> (intro h; simpa [keeps] using h)

theorem freeCore_msgs {p : Peer} {i f : Bool} {s s' : St} (h : freeCore p i f s = .ok s') :
    NoMsg s' p.ep ∧ ∀ ep, NoMsg s ep → NoMsg s' ep := by
  obtain ⟨-, -, -, -, -, -, -, -, -, e1, -, ⟨mem, -, e2⟩, -⟩ := freeCore_eff h
  have hm : ∀ m, (Ev.recv m ∈ s'.q ∨ Ev.send m ∈ s'.q) → (Ev.recv m ∈ s.q ∨ Ev.send m ∈ s.q) ∧ eqEp m.ep p.ep = false := by
    intro m hm
    simp only [e2, List.mem_append, List.mem_filter, List.mem_map] at hm
    rcases hm with (⟨h1, h2⟩ | ⟨x, -, hx⟩) | (⟨h1, h2⟩ | ⟨x, -, hx⟩)
    · exact ⟨.inl h1, keeps_msg.1 h2⟩
    · cases hx
    · exact ⟨.inr h1, keeps_msg.2 h2⟩
    · cases hx
  refine ⟨⟨fun m h => (hm m h).2, ?_⟩, fun ep hn => ⟨fun m h => hn.1 m (hm m h).1, ?_⟩⟩
  · intro e he
    rw [e1] at he
    simpa using (List.mem_filter.1 he).2
  · intro e he
    rw [e1] at he
    exact hn.2 e (List.mem_filter.1 he).1

theorem dropEvents_eff {mem : Nat → Option Ep} {ep : Ep} {s s' : St} (h : dropEvents mem ep s = .ok s') :
    s'.peers = s.peers ∧ s'.resets = s.resets ∧ s'.dos = s.dos ∧ NoMsg s' ep ∧ ∀ e, NoMsg s e → NoMsg s' e := by
  unfold dropEvents at h
  obtain ⟨r, h1, h2⟩ := bind_ok h
  cases h2
  have hf := drop_fst _ _ _ h1
  have hm : ∀ m, (Ev.recv m ∈ r.1 ∨ Ev.send m ∈ r.1) → (Ev.recv m ∈ s.q ∨ Ev.send m ∈ s.q) ∧ eqEp m.ep ep = false := by
    intro m hm
    rw [hf, List.mem_filter, List.mem_filter] at hm
    rcases hm with ⟨h1, h2⟩ | ⟨h1, h2⟩
    · exact ⟨.inl h1, keeps_msg.1 h2⟩
    · exact ⟨.inr h1, keeps_msg.2 h2⟩
  refine ⟨rfl, rfl, rfl, ⟨fun m h => (hm m h).2, ?_⟩, fun e hn => ⟨fun m h => hn.1 m (hm m h).1, ?_⟩⟩
  · intro e he
    simpa using (List.mem_filter.1 he).2
  · intro e' he
    exact hn.2 e' (List.mem_filter.1 he).1

theorem notified_closes {c : Cfg} {ep : Ep} {n : Bool} : ∀ t ∈ notified c ep n, closes t := by
  intro t ht
  unfold notified at ht
  split at ht
  · rcases List.mem_append.1 ht with h | h
    · split at h
      · rw [List.mem_singleton.1 h]; trivial
      · cases h
    · obtain ⟨e, -, rfl⟩ := List.mem_map.1 h
      trivial
  · cases ht

/-- One closing step: a matching peer is freed, and the task comes again for datagrams;
or there is none. -/
theorem closeStep {c : Cfg} {o : Or} {s : St} {t : Task} {r : St × List Task} (hc : closes t) (h : stepTask c o s t = .ok r) :
    ∃ ep, tep t = [ep] ∧
      ((∃ p n fr, getPeer s ep = some p ∧ freeCore p false fr s = .ok r.1 ∧
          r.2 = notified c p.ep n ++ (if ep.tcp || ep.sess != 0 then [] else [t]) ∧
          (∀ e f, t = .conn e f → fr = f ∧ n = true) ∧ (∀ e m, t = .rm e m → fr = false ∧ n = m)) ∨
        (getPeer s ep = none ∧ r.2 = [] ∧ ((∃ f, t = .conn ep f ∧ r.1 = s) ∨ ∃ n, t = .rm ep n ∧ dropEvents (memOf s) ep s = .ok r.1))) := by
  cases t with
  | conn ep fr =>
    refine ⟨ep, rfl, ?_⟩
    rw [stepTask] at h
    cases hg : getPeer s ep with
    | none => rw [hg] at h; cases h; exact .inr ⟨rfl, rfl, .inl ⟨fr, rfl, rfl⟩⟩
    | some p =>
      rw [hg] at h
      dsimp only at h
      obtain ⟨s', h1, h2⟩ := bind_ok h
      cases h2
      exact .inl ⟨p, true, fr, rfl, h1, rfl, (fun e f h => by cases h; exact ⟨rfl, rfl⟩), (fun e m h => by cases h)⟩
  | rm ep n =>
    refine ⟨ep, rfl, ?_⟩
    rw [stepTask] at h
    cases hg : getPeer s ep with
    | none =>
      rw [hg] at h
      dsimp only at h
      obtain ⟨s', h1, h2⟩ := bind_ok h
      cases h2
      exact .inr ⟨rfl, rfl, .inr ⟨n, rfl, h1⟩⟩
    | some p =>
      rw [hg] at h
      dsimp only at h
      obtain ⟨s', h1, h2⟩ := bind_ok h
      cases h2
      exact .inl ⟨p, n, false, rfl, h1, rfl, (fun e f h => by cases h), (fun e m h => by cases h; exact ⟨rfl, rfl⟩)⟩
  | scan _ _ => cases hc
  | retry _ => cases hc
  | pop => cases hc

theorem closeStep_closes {c : Cfg} {o : Or} {s : St} {t : Task} {r : St × List Task} (hc : closes t) (h : stepTask c o s t = .ok r) :
    ∀ x ∈ r.2, closes x := by
  obtain ⟨ep, -, ⟨p, n, fr, -, -, h3, -⟩ | ⟨-, h2, -⟩⟩ := closeStep hc h
  · intro x hx
    rw [h3] at hx
    rcases List.mem_append.1 hx with hx | hx
    · exact notified_closes x hx
    · split at hx
      · cases hx
      · rw [List.mem_singleton.1 hx]; exact hc
  · rw [h2]; intro x hx; cases hx

/-- Closing only takes peers away. -/
theorem close_sub {c : Cfg} {o : Or} (n : Nat) (ts : List Task) (hc : ∀ t ∈ ts, closes t) {s s' : St} (h : work c o n ts s = .ok s') :
    ∀ p ∈ s'.peers, p ∈ s.peers := by
  induction n generalizing ts s with
  | zero => cases ts with
    | nil => cases h; exact fun p hp => hp
    | cons t ts => cases h
  | succ n ih => cases ts with
    | nil => cases h; exact fun p hp => hp
    | cons t ts =>
      rw [work] at h
      obtain ⟨r, h1, h2⟩ := bind_ok h
      have h0 := hc t (List.mem_cons_self ..)
      have hr := ih (r.2 ++ ts) (by
        intro x hx
        rcases List.mem_append.1 hx with hx | hx
        · exact closeStep_closes h0 h1 x hx
        · exact hc x (List.mem_cons_of_mem _ hx)) h2
      intro p hp
      have hp := hr p hp
      obtain ⟨ep, -, ⟨q, _, fr, -, h2, -⟩ | ⟨-, -, ⟨_, -, e⟩ | ⟨_, -, e⟩⟩⟩ := closeStep h0 h1
      · rw [(freeCore_eff h2).1] at hp
        exact (List.mem_filter.1 hp).1
      · rw [e] at hp; exact hp
      · rw [(dropEvents_eff e).1] at hp; exact hp

/-- No session of a datagram endpoint is left, nor of one that has a single session. -/
theorem close_gone {c : Cfg} {o : Or} (n : Nat) (ts : List Task) (hc : ∀ t ∈ ts, closes t) {s s' : St} (h : work c o n ts s = .ok s')
    (nd : (s.peers.map (·.addr)).Nodup) (t : Task) (ep : Ep) (ht : t ∈ ts) (he : tep t = [ep])
    (hu : (ep.tcp = false ∧ ep.sess = 0) ∨ ∀ p ∈ s.peers, ∀ q ∈ s.peers, eqEp p.ep ep = true → eqEp q.ep ep = true → p = q) :
    ∀ p ∈ s'.peers, eqEp p.ep ep = false := by
  induction n generalizing ts s with
  | zero => cases ts with
    | nil => cases ht
    | cons t ts => cases h
  | succ n ih => cases ts with
    | nil => cases ht
    | cons x ts =>
      have hsub := close_sub _ _ hc h
      rw [work] at h
      obtain ⟨r, h1, h2⟩ := bind_ok h
      have h0 := hc x (List.mem_cons_self ..)
      have hall : ∀ y ∈ r.2 ++ ts, closes y := by
        intro y hy
        rcases List.mem_append.1 hy with hy | hy
        · exact closeStep_closes h0 h1 y hy
        · exact hc y (List.mem_cons_of_mem _ hy)
      have hr := close_sub n (r.2 ++ ts) hall h2
      have hpe : ∀ p ∈ r.1.peers, p ∈ s.peers := by
        obtain ⟨ep, -, ⟨q, _, fr, -, h2, -⟩ | ⟨-, -, ⟨_, -, e⟩ | ⟨_, -, e⟩⟩⟩ := closeStep h0 h1
        · rw [(freeCore_eff h2).1]; exact fun p hp => (List.mem_filter.1 hp).1
        · rw [e]; exact fun p hp => hp
        · rw [(dropEvents_eff e).1]; exact fun p hp => hp
      have nd' : (r.1.peers.map (·.addr)).Nodup := by
        obtain ⟨ep, -, ⟨q, _, fr, -, h2, -⟩ | ⟨-, -, ⟨_, -, e⟩ | ⟨_, -, e⟩⟩⟩ := closeStep h0 h1
        · rw [(freeCore_eff h2).1]; exact map_addr_filter_nodup nd _
        · rw [e]; exact nd
        · rw [(dropEvents_eff e).1]; exact nd
      have hu' : (ep.tcp = false ∧ ep.sess = 0) ∨
          ∀ p ∈ r.1.peers, ∀ q ∈ r.1.peers, eqEp p.ep ep = true → eqEp q.ep ep = true → p = q :=
        hu.imp id fun hu p hp q hq => hu p (hpe p hp) q (hpe q hq)
      have key : t ∈ r.2 ++ ts ∨ ∀ p ∈ r.1.peers, eqEp p.ep ep = false := by
        rcases List.mem_cons.1 ht with e | ht
        · subst e
          obtain ⟨ep', he', ⟨q, _, fr, hg, h2, h3, -⟩ | ⟨hg, -, ⟨_, -, e⟩ | ⟨_, -, e⟩⟩⟩ := closeStep h0 h1
          · rw [he] at he'; cases he'
            by_cases hb : (ep.tcp || ep.sess != 0) = true
            · right
              have hu := hu.resolve_left (by
                intro h; rw [h.1, h.2] at hb; cases hb)
              rw [(freeCore_eff h2).1]
              intro p hp
              obtain ⟨hp, hpa⟩ := List.mem_filter.1 hp
              cases hm : eqEp p.ep ep with
              | false => rfl
              | true =>
                have := hu p hp q (getPeer_some hg).1 hm (getPeer_some hg).2
                subst this
                simp at hpa
            · left
              rw [h3, if_neg hb]
              exact List.mem_append.2 (.inl (List.mem_append.2 (.inr (List.mem_singleton.2 rfl))))
          · rw [he] at he'; cases he'
            right; rw [e]; exact getPeer_none hg
          · rw [he] at he'; cases he'
            right; rw [(dropEvents_eff e).1]; exact getPeer_none hg
        · exact .inl (List.mem_append.2 (.inr ht))
      rcases key with key | key
      · exact ih _ hall h2 nd' key hu'
      · exact fun p hp => key p (hr p hp)

/-- The sessions of other endpoints stay. -/
theorem close_kept {c : Cfg} {o : Or} (hq : Quiet c) (n : Nat) (ts : List Task) (hc : ∀ t ∈ ts, closes t) {s s' : St}
    (h : work c o n ts s = .ok s') (nd : (s.peers.map (·.addr)).Nodup) (pw : s.peers.Pairwise fun p q => eqEp p.ep q.ep = false)
    (p : Peer) (hp : p ∈ s.peers) (hn : ∀ t ∈ ts, ∀ ep ∈ tep t, eqEp p.ep ep = false) : p ∈ s'.peers := by
  induction n generalizing ts s with
  | zero => cases ts with
    | nil => cases h; exact hp
    | cons t ts => cases h
  | succ n ih => cases ts with
    | nil => cases h; exact hp
    | cons t ts =>
      rw [work] at h
      obtain ⟨r, h1, h2⟩ := bind_ok h
      have h0 := hc t (List.mem_cons_self ..)
      have hall : ∀ y ∈ r.2 ++ ts, closes y := by
        intro y hy
        rcases List.mem_append.1 hy with hy | hy
        · exact closeStep_closes h0 h1 y hy
        · exact hc y (List.mem_cons_of_mem _ hy)
      have hn1 := hn t (List.mem_cons_self ..)
      have hn2 := fun x hx => hn x (List.mem_cons_of_mem _ hx)
      obtain ⟨ep, he, ⟨q, n', fr, hg, g2, h3, -⟩ | ⟨-, h3, ⟨_, -, e⟩ | ⟨_, -, e⟩⟩⟩ := closeStep h0 h1
      · obtain ⟨hqm, hqe⟩ := getPeer_some hg
        have hne : p ≠ q := by
          intro e
          subst e
          have := hn1 ep (by rw [he]; exact List.mem_singleton.2 rfl)
          rw [hqe] at this; cases this
        have e1 := (freeCore_eff g2).1
        refine ih _ hall h2 (by rw [e1]; exact map_addr_filter_nodup nd _) (by rw [e1]; exact pw.sublist List.filter_sublist) ?_ ?_
        · rw [e1]
          refine List.mem_filter.2 ⟨hp, ?_⟩
          have : p.addr ≠ q.addr := fun e => hne (nodup_eq nd hp hqm e)
          simpa using this
        · intro x hx
          rcases List.mem_append.1 hx with hx | hx
          · rw [h3] at hx
            rcases List.mem_append.1 hx with hx | hx
            · rcases quiet_notified hq q.ep n' with e | e <;> rw [e] at hx
              · cases hx
              · rw [List.mem_singleton.1 hx]
                intro ep' he'
                rw [List.mem_singleton.1 he']
                cases hm : eqEp p.ep q.ep with
                | false => rfl
                | true => exact absurd (pairwise_ne pw hp hqm hm) hne
            · split at hx
              · cases hx
              · rw [List.mem_singleton.1 hx]; exact hn1
          · exact hn2 x hx
      · rw [h3] at h2
        rw [e] at h2
        exact ih _ (fun x hx => hc x (List.mem_cons_of_mem _ hx)) h2 nd pw hp hn2
      · rw [h3] at h2
        have e1 := (dropEvents_eff e).1
        exact ih _ (fun x hx => hc x (List.mem_cons_of_mem _ hx)) h2 (by rw [e1]; exact nd) (by rw [e1]; exact pw) (by rw [e1]; exact hp) hn2

/-- Of a peer that is taken away no message waits any more. -/
theorem close_msgs {c : Cfg} {o : Or} (n : Nat) (ts : List Task) (hc : ∀ t ∈ ts, closes t) {s s' : St} (h : work c o n ts s = .ok s')
    (nd : (s.peers.map (·.addr)).Nodup) :
    (∀ ep, NoMsg s ep → NoMsg s' ep) ∧ (∀ p ∈ s.peers, p ∈ s'.peers ∨ NoMsg s' p.ep) ∧
      ∀ ep m, ep.tcp = false → ep.sess = 0 → Task.rm ep m ∈ ts → NoMsg s' ep := by
  induction n generalizing ts s with
  | zero => cases ts with
    | nil => cases h; exact ⟨fun _ h => h, fun p hp => .inl hp, fun _ _ _ _ h => by cases h⟩
    | cons t ts => cases h
  | succ n ih => cases ts with
    | nil => cases h; exact ⟨fun _ h => h, fun p hp => .inl hp, fun _ _ _ _ h => by cases h⟩
    | cons t ts =>
      rw [work] at h
      obtain ⟨r, h1, h2⟩ := bind_ok h
      have h0 := hc t (List.mem_cons_self ..)
      have hall : ∀ y ∈ r.2 ++ ts, closes y := by
        intro y hy
        rcases List.mem_append.1 hy with hy | hy
        · exact closeStep_closes h0 h1 y hy
        · exact hc y (List.mem_cons_of_mem _ hy)
      obtain ⟨ep, he, ⟨q, n', fr, hg, g2, h3, -⟩ | ⟨-, h3, ⟨_, et, e⟩ | ⟨_, et, e⟩⟩⟩ := closeStep h0 h1
      · have e1 := (freeCore_eff g2).1
        have hm := freeCore_msgs g2
        obtain ⟨i1, i2, i3⟩ := ih _ hall h2 (by rw [e1]; exact map_addr_filter_nodup nd _)
        refine ⟨fun ep h => i1 ep (hm.2 ep h), ?_, ?_⟩
        · intro p hp
          by_cases e : p.addr = q.addr
          · have := nodup_eq nd hp (getPeer_some hg).1 e
            subst this
            exact .inr (i1 _ hm.1)
          · exact i2 p (by rw [e1]; exact List.mem_filter.2 ⟨hp, by simpa using e⟩)
        · intro ep' m ht hs hin
          refine i3 ep' m ht hs (List.mem_append.2 ?_)
          rcases List.mem_cons.1 hin with e | hin
          · subst e
            cases he
            left
            rw [h3, if_neg (by simp [ht, hs])]
            exact List.mem_append.2 (.inr (List.mem_singleton.2 rfl))
          · exact .inr hin
      · subst et
        obtain ⟨i1, i2, i3⟩ := ih _ hall h2 (by rw [e]; exact nd)
        rw [e] at i1 i2
        refine ⟨i1, i2, ?_⟩
        intro ep' m ht hs hin
        rcases List.mem_cons.1 hin with e | hin
        · cases e
        · exact i3 ep' m ht hs (List.mem_append.2 (.inr hin))
      · subst et
        have hd := dropEvents_eff e
        obtain ⟨i1, i2, i3⟩ := ih _ hall h2 (by rw [hd.1]; exact nd)
        rw [hd.1] at i2
        refine ⟨fun ep h => i1 ep (hd.2.2.2.2 ep h), i2, ?_⟩
        intro ep' m ht hs hin
        rcases List.mem_cons.1 hin with e | hin
        · cases e; exact i1 _ hd.2.2.2.1
        · exact i3 ep' m ht hs (List.mem_append.2 (.inr hin))

/-- A session that is closed while others wait to be: what is left for the rest of the
work. -/
theorem close_own {c : Cfg} {o : Or} (hq : Quiet c) (n : Nat) (fr : Bool) (ts : List Task) {s s' : St} (p : Peer) (hp : p ∈ s.peers)
    (pw : s.peers.Pairwise fun p q => eqEp p.ep q.ep = false)
    (h : work c o n (.conn p.ep fr :: ts) s = .ok s') :
    ∃ n' s1, work c o n' ts s1 = .ok s' ∧ s1.peers = s.peers.filter (fun x => x.addr != p.addr) ∧ s1.dos = s.dos ∧
      s1.resets = if p.doc && s.dos p.ep.dev == .rfotm && !fr then s.resets ++ [p.ep.dev] else s.resets := by
  have hskip : ∀ (l : List Task), (∀ t ∈ l, closes t ∧ tep t = [p.ep]) → ∀ n (s s' : St), (∀ x ∈ s.peers, eqEp x.ep p.ep = false) →
      work c o n (l ++ ts) s = .ok s' → ∃ n' s1, work c o n' ts s1 = .ok s' ∧ s1.peers = s.peers ∧ s1.dos = s.dos ∧ s1.resets = s.resets := by
    intro l
    induction l with
    | nil => intro _ n s s' _ h; exact ⟨n, s, h, rfl, rfl, rfl⟩
    | cons t l ih =>
      intro hl n s s' hs h
      cases n with
      | zero => cases h
      | succ n =>
        rw [List.cons_append, work] at h
        obtain ⟨r, h1, h2⟩ := bind_ok h
        obtain ⟨hc, ht⟩ := hl t (List.mem_cons_self ..)
        obtain ⟨ep, he, ⟨q, _, _, hg, -⟩ | ⟨-, h3, hr⟩⟩ := closeStep hc h1
        · rw [ht] at he; cases he
          have := hs q (getPeer_some hg).1
          rw [(getPeer_some hg).2] at this; cases this
        · have hrr : r.1.peers = s.peers ∧ r.1.dos = s.dos ∧ r.1.resets = s.resets := by
            rcases hr with ⟨_, -, e⟩ | ⟨_, -, e⟩
            · rw [e]; exact ⟨rfl, rfl, rfl⟩
            · have := dropEvents_eff e; exact ⟨this.1, this.2.2.1, this.2.1⟩
          rw [h3] at h2
          obtain ⟨n', s1, i1, i2, i3, i4⟩ := ih (fun x hx => hl x (List.mem_cons_of_mem _ hx)) n r.1 s'
            (by rw [hrr.1]; exact hs) h2
          exact ⟨n', s1, i1, i2.trans hrr.1, i3.trans hrr.2.1, i4.trans hrr.2.2⟩
  cases n with
  | zero => cases h
  | succ n =>
    rw [work] at h
    obtain ⟨r, h1, h2⟩ := bind_ok h
    obtain ⟨ep, he, ⟨q, n', fr', hg, g2, h3, hfr, -⟩ | ⟨hg, -⟩⟩ := closeStep (t := .conn p.ep fr) trivial h1
    · cases he
      have hqp := pairwise_ne pw (getPeer_some hg).1 hp (getPeer_some hg).2
      subst hqp
      obtain ⟨rfl, rfl⟩ := hfr _ _ rfl
      obtain ⟨e1, -, -, -, e2, -, -, -, e3, -⟩ := freeCore_eff g2
      rw [h3] at h2
      obtain ⟨m, s1, i1, i2, i3, i4⟩ := hskip _ (by
        intro t ht
        rcases List.mem_append.1 ht with ht | ht
        · rcases quiet_notified hq q.ep true with e | e <;> rw [e] at ht
          · cases ht
          · rw [List.mem_singleton.1 ht]; exact ⟨trivial, rfl⟩
        · split at ht
          · cases ht
          · rw [List.mem_singleton.1 ht]; exact ⟨trivial, rfl⟩) n r.1 s' (by
        rw [e1]
        intro x hx
        obtain ⟨hx, hxa⟩ := List.mem_filter.1 hx
        cases hm : eqEp x.ep q.ep with
        | false => rfl
        | true =>
          have := pairwise_ne pw hx hp hm
          subst this
          simp at hxa) h2
      exact ⟨m, s1, i1, i2.trans e1, i3.trans e2, i4.trans e3⟩
    · cases he
      have := getPeer_none hg p hp
      rw [eqEp_refl] at this; cases this

/-- The resets that closing these sessions schedules. -/
def resetsOf (s : St) (l : List Peer) : List Nat := (l.filter fun p => p.doc && s.dos p.ep.dev == .rfotm).map (·.ep.dev)

/-- The loop over the sessions. -/
theorem scan_eff {c : Cfg} {o : Or} (hq : Quiet c) (d : Option Nat) (post : List Peer) : ∀ (pre : List Peer) (n : Nat) (s s' : St),
    s.peers = pre ++ post → (s.peers.map (·.addr)).Nodup → (s.peers.Pairwise fun p q => eqEp p.ep q.ep = false) →
    work c o n [.scan (post.head?.map (·.addr)) d] s = .ok s' →
    s'.peers = pre ++ post.filter (fun p => !d.all (· == p.ep.dev)) ∧
      s'.resets = s.resets ++ (if d.isSome then [] else resetsOf s post) ∧ s'.dos = s.dos := by
  induction post with
  | nil =>
    intro pre n s s' hs _ _ h
    cases n with
    | zero => cases h
    | succ n =>
      rw [work] at h
      obtain ⟨r, h1, h2⟩ := bind_ok h
      cases h1
      have : s' = s := by cases n <;> (cases h2; rfl)
      subst this
      refine ⟨by simpa using hs, by simp [resetsOf], rfl⟩
  | cons p post ih =>
    intro pre n s s' hs nd pw h
    cases n with
    | zero => cases h
    | succ n =>
      have hp : p ∈ s.peers := by rw [hs]; simp
      rw [work] at h
      obtain ⟨r, h1, h2⟩ := bind_ok h
      have hat := at_mem nd hp
      have hnotin : ∀ x ∈ pre ++ post, x.addr ≠ p.addr := by
        intro x hx e
        rw [hs] at nd
        simp only [List.map_append, List.map_cons, List.nodup_append, List.nodup_cons] at nd
        rcases List.mem_append.1 hx with hx | hx
        · exact nd.2.2 _ (List.mem_map_of_mem hx) _ (List.mem_cons_self ..) e
        · exact nd.2.1.1 (List.mem_map.2 ⟨x, hx, e⟩)
      have haf : after p.addr s.peers = post.head?.map (·.addr) := by
        rw [hs]
        have : ∀ pre : List Peer, (∀ x ∈ pre, x.addr ≠ p.addr) → after p.addr (pre ++ p :: post) = post.head?.map (·.addr) := by
          intro pre
          induction pre with
          | nil => intro _; simp [after]
          | cons x pre ih =>
            intro hx
            rw [List.cons_append, after, if_neg (by simpa using hx x (List.mem_cons_self ..))]
            exact ih fun y hy => hx y (List.mem_cons_of_mem _ hy)
        exact this pre fun x hx => hnotin x (List.mem_append.2 (.inl hx))
      simp only [List.head?_cons, Option.map_some, stepTask, hat] at h1
      by_cases hd : d.all (· == p.ep.dev) = true
      · rw [if_pos hd] at h1
        cases h1
        obtain ⟨n', s1, i1, i2, i3, i4⟩ := close_own hq n d.isSome _ p hp pw h2
        rw [haf] at i1
        have i2' : s1.peers = pre ++ post := by
          rw [i2, hs]
          have hf : ∀ l : List Peer, (∀ x ∈ l, x.addr ≠ p.addr) → l.filter (fun x => x.addr != p.addr) = l := by
            intro l hl
            rw [List.filter_eq_self]
            intro x hx
            simpa using hl x hx
          rw [List.filter_append, List.filter_cons_of_neg (by simp), hf pre (fun x hx => hnotin x (List.mem_append.2 (.inl hx))),
            hf post (fun x hx => hnotin x (List.mem_append.2 (.inr hx)))]
        obtain ⟨j1, j2, j3⟩ := ih pre n' s1 s' i2' (by rw [i2]; exact map_addr_filter_nodup nd _)
          (by rw [i2]; exact pw.sublist List.filter_sublist) i1
        refine ⟨?_, ?_, j3.trans i3⟩
        · rw [j1, List.filter_cons_of_neg (by simpa using hd)]
        · rw [j2, i4]
          cases d with
          | some d => simp
          | none =>
            simp only [Option.isSome_none, Bool.not_false, Bool.and_true, Bool.false_eq_true, if_false]
            unfold resetsOf
            rw [i3]
            by_cases hb : (p.doc && s.dos p.ep.dev == .rfotm) = true
            · rw [if_pos hb, List.filter_cons, if_pos hb, List.map_cons, List.append_assoc]; rfl
            · rw [if_neg hb, List.filter_cons, if_neg hb]
      · rw [if_neg hd] at h1
        cases h1
        rw [haf] at h2
        have hs' : s.peers = (pre ++ [p]) ++ post := by rw [hs]; simp
        obtain ⟨j1, j2, j3⟩ := ih (pre ++ [p]) n s s' hs' nd pw h2
        refine ⟨?_, ?_, j3⟩
        · rw [j1, List.filter_cons_of_pos (by simpa using hd), List.append_assoc]; rfl
        · rw [j2]
          cases d with
          | some d => rfl
          | none => exact absurd rfl hd

end Verif.TlsPeers
