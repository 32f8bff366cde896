import Verif.TlsPeers.Steps

/-! Runs without undefined behaviour, area TlsPeers. -/

namespace Verif.TlsPeers

open Spec

/-- Events are those of peers of the list. -/
structure Safe (s : St) : Prop where
  ev : ∀ a, (Ev.read a ∈ s.q ∨ Ev.write a ∈ s.q) → ∃ p ∈ s.peers, p.addr = a
  as : s.asserts = []

theorem freeCore_safe {c : Cfg} {hand : List Msg} {s : St} (b : Base c hand s) (w : Safe s) (p : Peer) (i f : Bool) :
    ∃ s', freeCore p i f s = .ok s' ∧ Safe s' := by
  have hok : ∃ s', freeCore p i f s = .ok s' := by
    unfold freeCore
    dsimp only
    unfold dropEvents
    obtain ⟨r, hr⟩ := drop_ok (fun a => if a = p.addr then some p.ep else memOf
      { s with
        peers := s.peers.filter fun x => x.addr != p.addr,
        resets := if p.doc && s.dos p.ep.dev == .rfotm && !f then s.resets ++ [p.ep.dev] else s.resets,
        inact := if i then s.inact else s.inact.filter fun x => x.1 != p.addr,
        rel := s.rel ++ p.sendq ++ p.recvq } a) p.ep s.q (by
        intro a ha
        by_cases e : a = p.addr
        · exact ⟨p.ep, by simp [e]⟩
        · obtain ⟨x, hx, rfl⟩ := w.ev a ha
          refine ⟨x.ep, ?_⟩
          rw [if_neg e]
          unfold memOf
          rw [at_mem (s := { s with
              peers := s.peers.filter fun x => x.addr != p.addr,
              resets := if p.doc && s.dos p.ep.dev == .rfotm && !f then s.resets ++ [p.ep.dev] else s.resets,
              inact := if i then s.inact else s.inact.filter fun x => x.1 != p.addr,
              rel := s.rel ++ p.sendq ++ p.recvq })
            (map_addr_filter_nodup b.nd _) (List.mem_filter.2 ⟨hx, by simpa using e⟩)]
          rfl)
    rw [hr]
    exact ⟨_, rfl⟩
  obtain ⟨s', h⟩ := hok
  refine ⟨s', h, ?_⟩
  obtain ⟨e1, -, -, -, -, -, -, -, -, -, e2, ⟨mem, hmem, e3⟩, -⟩ := freeCore_eff h
  rw [w.as] at e2 e3
  simp only [List.filter_nil, List.map_nil, List.append_nil] at e2 e3
  refine ⟨?_, e2⟩
  intro a ha
  have hk : keeps mem p.ep (.read a) = true ∧ ∃ x ∈ s.peers, x.addr = a := by
    rw [e3, List.mem_filter, List.mem_filter] at ha
    rcases ha with ha | ha
    · exact ⟨ha.2, w.ev a (.inl ha.1)⟩
    · exact ⟨ha.2, w.ev a (.inr ha.1)⟩
  obtain ⟨hk, x, hx, rfl⟩ := hk
  refine ⟨x, ?_, rfl⟩
  rw [e1]
  refine List.mem_filter.2 ⟨hx, ?_⟩
  by_cases e : x.addr = p.addr
  · rw [keeps, hmem, if_pos e] at hk
    simp [eqEp_refl] at hk
  · simpa using e

/-! ### What is to be done -/

/-- The peers a task points to. -/
def tgt : Task → List Nat
  | .scan (some a) _ => [a]
  | .retry (some a) => [a]
  | _ => []

/-- The endpoint a task closes. -/
def tep : Task → List Ep
  | .conn ep _ => [ep]
  | .rm ep _ => [ep]
  | _ => []

/-- A loop over the peers is the last that is to be done. -/
def Last : List Task → Prop
  | [] => True
  | t :: ts => ((tgt t = [] ∧ t ≠ .pop) ∨ ts = []) ∧ Last ts

structure TaskOk (s : St) (ts : List Task) : Prop where
  live : ∀ a ∈ ts.flatMap tgt, ∃ q ∈ s.peers, q.addr = a
  apart : ∀ ep ∈ ts.flatMap tep, ∀ a ∈ ts.flatMap tgt, ∀ q ∈ s.peers, q.addr = a → eqEp q.ep ep = false
  last : Last ts

/-- Peers from this one on. -/
def suf (a : Nat) : List Peer → Nat
  | [] => 0
  | p :: l => if p.addr == a then l.length + 1 else suf a l

theorem suf_le (a : Nat) (l : List Peer) : suf a l ≤ l.length := by
  induction l with
  | nil => exact Nat.le_refl _
  | cons p l ih =>
    rw [suf]
    split
    · exact Nat.le_refl _
    · rw [List.length_cons]; omega

theorem suf_filter (a : Nat) (f : Peer → Bool) (l : List Peer) : suf a (l.filter f) ≤ suf a l := by
  induction l with
  | nil => exact Nat.le_refl _
  | cons p l ih =>
    have h1 := suf_le a (l.filter f)
    have h2 := List.length_filter_le f l
    rw [List.filter_cons]
    split
    · rw [suf, suf]
      split
      · omega
      · exact ih
    · rw [suf]
      split
      · omega
      · exact ih

theorem after_some {a b : Nat} {l : List Peer} (h : after a l = some b) (nd : (l.map (·.addr)).Nodup) :
    (∃ q ∈ l, q.addr = b) ∧ b ≠ a ∧ suf b l + 1 = suf a l := by
  induction l with
  | nil => cases h
  | cons p l ih =>
    rw [List.map_cons, List.nodup_cons] at nd
    rw [after] at h
    split at h
    · rename_i he
      have he : p.addr = a := by simpa using he
      cases l with
      | nil => cases h
      | cons q l =>
        have hb : q.addr = b := by simpa using h
        have hne : p.addr ≠ b := fun e => nd.1 (List.mem_map.2 ⟨q, List.mem_cons_self .., by rw [hb, e]⟩)
        refine ⟨⟨q, List.mem_cons_of_mem _ (List.mem_cons_self ..), hb⟩, fun e => hne (by rw [he, e]), ?_⟩
        simp [suf, he, hb, show ¬ a = b from fun e => hne (by rw [he, e])]
    · rename_i he
      have he : p.addr ≠ a := by simpa using he
      obtain ⟨⟨q, hq, hb⟩, h1, h2⟩ := ih h nd.2
      have hne : p.addr ≠ b := fun e => nd.1 (List.mem_map.2 ⟨q, hq, by rw [hb, e]⟩)
      refine ⟨⟨q, List.mem_cons_of_mem _ hq, hb⟩, h1, ?_⟩
      simp [suf, he, hne, h2]

theorem suf_live {a : Nat} {l : List Peer} {q : Peer} (hq : q ∈ l) (ha : q.addr = a) : 1 ≤ suf a l := by
  induction l with
  | nil => cases hq
  | cons p l ih =>
    rw [suf]
    split
    · omega
    · rename_i he
      rcases List.mem_cons.1 hq with rfl | hq'
      · simp [ha] at he
      · exact ih hq'

/-- The steps a task can take. -/
def wt (s : St) : Task → Nat
  | .scan (some a) _ => 2 * suf a s.peers + 1
  | .retry (some a) => 2 * suf a s.peers + 1
  | _ => 1

def wsum (s : St) (ts : List Task) : Nat := (ts.map (wt s)).sum

theorem wsum_append (s : St) (a b : List Task) : wsum s (a ++ b) = wsum s a + wsum s b := by simp [wsum]

theorem wsum_free {s s' : St} {p : Peer} (e : s'.peers = s.peers.filter fun x => x.addr != p.addr) (ts : List Task) :
    wsum s' ts ≤ wsum s ts := by
  induction ts with
  | nil => exact Nat.le_refl _
  | cons t ts ih =>
    have : wt s' t ≤ wt s t := by
      cases t with
      | scan nx d =>
        cases nx with
        | none => exact Nat.le_refl _
        | some a => have := suf_filter a (fun x => x.addr != p.addr) s.peers; simp only [wt, e]; omega
      | retry nx =>
        cases nx with
        | none => exact Nat.le_refl _
        | some a => have := suf_filter a (fun x => x.addr != p.addr) s.peers; simp only [wt, e]; omega
      | conn => exact Nat.le_refl _
      | rm => exact Nat.le_refl _
      | pop => exact Nat.le_refl _
    simp only [wsum, List.map_cons, List.sum_cons] at ih ⊢
    omega

theorem length_free {s s' : St} {p : Peer} (hp : p ∈ s.peers) (e : s'.peers = s.peers.filter fun x => x.addr != p.addr) :
    s'.peers.length + 1 ≤ s.peers.length := by
  rw [e]
  have : (s.peers.filter fun x => x.addr != p.addr).length < s.peers.length := by
    rw [List.length_filter_lt_length_iff_exists]
    exact ⟨p, hp, by simp⟩
  omega

/-- What a bounded number of steps is enough for. -/
def pot (s : St) (ts : List Task) : Nat := 3 * s.peers.length + wsum s ts

theorem taskOk_tail {s : St} {t : Task} {ts : List Task} (h : TaskOk s (t :: ts)) : TaskOk s ts := by
  refine ⟨?_, ?_, h.last.2⟩
  · intro a ha; exact h.live a (by rw [List.flatMap_cons]; exact List.mem_append.2 (.inr ha))
  · intro ep he a ha
    exact h.apart ep (by rw [List.flatMap_cons]; exact List.mem_append.2 (.inr he)) a
      (by rw [List.flatMap_cons]; exact List.mem_append.2 (.inr ha))

theorem last_append {ex ts : List Task} (h : Last ts) (hx : ∀ t ∈ ex, tgt t = [] ∧ t ≠ .pop) : Last (ex ++ ts) := by
  induction ex with
  | nil => exact h
  | cons t ex ih =>
    exact ⟨.inl (hx t (List.mem_cons_self ..)), ih fun t ht => hx t (List.mem_cons_of_mem _ ht)⟩

/-- Freeing a peer no task points to, and closing its endpoint or this one. -/
theorem taskOk_free {s s' : St} {p : Peer} {ts ex : List Task} (h : TaskOk s ts)
    (hn : ∀ a ∈ ts.flatMap tgt, a ≠ p.addr) (e : s'.peers = s.peers.filter fun x => x.addr != p.addr)
    (hx : ∀ t ∈ ex, (tgt t = [] ∧ t ≠ .pop) ∧
      ∀ ep ∈ tep t, ∀ a ∈ ts.flatMap tgt, ∀ q ∈ s.peers, q.addr = a → eqEp q.ep ep = false) :
    TaskOk s' (ex ++ ts) := by
  have ht : (ex ++ ts).flatMap tgt = ts.flatMap tgt := by
    rw [List.flatMap_append]
    have : ex.flatMap tgt = [] := by
      rw [List.flatMap_eq_nil_iff]
      exact fun t ht => (hx t ht).1.1
    rw [this, List.nil_append]
  refine ⟨?_, ?_, last_append h.last fun t ht => (hx t ht).1⟩
  · intro a ha
    rw [ht] at ha
    obtain ⟨q, hq, rfl⟩ := h.live a ha
    refine ⟨q, ?_, rfl⟩
    rw [e]
    exact List.mem_filter.2 ⟨hq, by simpa using hn q.addr ha⟩
  · intro ep he a ha q hq hqa
    rw [ht] at ha
    rw [e] at hq
    have hq := (List.mem_filter.1 hq).1
    rw [List.flatMap_append, List.mem_append] at he
    rcases he with he | he
    · obtain ⟨t, ht, he⟩ := List.mem_flatMap.1 he
      exact (hx t ht).2 ep he a ha q hq hqa
    · exact h.apart ep he a ha q hq hqa

theorem quiet_notified {c : Cfg} (hq : Quiet c) (ep : Ep) (n : Bool) :
    notified c ep n = [] ∨ notified c ep n = [.rm ep false] := by
  unfold notified
  rw [(hq ep).1]
  split
  · split <;> simp
  · exact .inl rfl

/-- Closing the sessions of an endpoint. -/
theorem close_safe {c : Cfg} {hand : List Msg} {s : St} {t : Task} {ts : List Task} (hq : Quiet c) (b : Base c hand s)
    (w : Safe s) (h : TaskOk s (t :: ts)) (ep : Ep) (fr : Bool) (p : Peer) (n : Bool) (ex : List Task) (hp : p ∈ s.peers)
    (he : eqEp p.ep ep = true) (htep : tep t = [ep]) (hex : ex = [] ∨ ex = [t]) (hwt : wt s t = 1) (htg : tgt t = []) (hnp : t ≠ .pop) :
    ∃ s', freeCore p false fr s = .ok s' ∧ Safe s' ∧ TaskOk s' ((notified c p.ep n ++ ex) ++ ts) ∧
      pot s' ((notified c p.ep n ++ ex) ++ ts) + 1 ≤ pot s (t :: ts) := by
  have htl := taskOk_tail h
  obtain ⟨s', h1, h2⟩ := freeCore_safe b w p false fr
  have e := (freeCore_eff h1).1
  have hap : ∀ a ∈ ts.flatMap tgt, ∀ q ∈ s.peers, q.addr = a → eqEp q.ep ep = false := by
    intro a ha
    refine h.apart ep ?_ a ?_
    · rw [List.flatMap_cons, htep]; exact List.mem_append.2 (.inl (List.mem_singleton.2 rfl))
    · rw [List.flatMap_cons]; exact List.mem_append.2 (.inr ha)
  refine ⟨s', h1, h2, ?_, ?_⟩
  · refine taskOk_free htl ?_ e ?_
    · intro a ha e
      have := hap a ha p hp e.symm
      rw [he] at this; cases this
    · intro x hx
      have hx : x = .rm p.ep false ∨ x = t := by
        rcases List.mem_append.1 hx with hx | hx
        · rcases quiet_notified hq p.ep n with hn | hn <;> rw [hn] at hx
          · cases hx
          · exact .inl (List.mem_singleton.1 hx)
        · rcases hex with rfl | rfl
          · cases hx
          · exact .inr (List.mem_singleton.1 hx)
      rcases hx with rfl | rfl
      · refine ⟨⟨rfl, (fun e => nomatch e)⟩, ?_⟩
        intro ep' hep a ha q hq' hqa
        rw [show ep' = p.ep from List.mem_singleton.1 hep]
        cases hc : eqEp q.ep p.ep with
        | false => rfl
        | true =>
          have := pairwise_ne b.pw hq' hp hc
          subst this
          have := hap a ha q hq' hqa
          rw [he] at this; cases this
      · refine ⟨⟨htg, hnp⟩, ?_⟩
        intro ep' hep a ha q hq' hqa
        rw [htep] at hep
        rw [show ep' = ep from List.mem_singleton.1 hep]
        exact hap a ha q hq' hqa
  · have hl := length_free hp e
    have hw := wsum_free e ts
    have h3 : wsum s' (notified c p.ep n) ≤ 1 := by
      rcases quiet_notified hq p.ep n with hn | hn <;> rw [hn] <;> simp [wsum, wt]
    have h4 : wsum s' ex ≤ 1 := by
      rcases hex with rfl | rfl
      · simp [wsum]
      · have := wsum_free e [t]
        simp only [wsum, List.map_cons, List.map_nil, List.sum_cons, List.sum_nil, hwt] at this ⊢
        omega
    unfold pot
    rw [wsum_append, wsum_append]
    have : wsum s (t :: ts) = 1 + wsum s ts := by simp [wsum, hwt]
    omega

/-- A loop over the peers: the next peer is another one of the list. -/
theorem next_ok {c : Cfg} {hand : List Msg} {s : St} (b : Base c hand s) {a : Nat} {x : Peer} (hx : x ∈ s.peers) (hxa : x.addr = a)
    (k : Option Nat → Task) (hk : ∀ y, tgt (k y) = y.toList) (hw : ∀ y, wt s (k y) = match y with | some a => 2 * suf a s.peers + 1 | none => 1) :
    (∀ t ∈ tgt (k (after a s.peers)), (∃ q ∈ s.peers, q.addr = t) ∧ t ≠ a) ∧ wt s (k (after a s.peers)) + 2 ≤ 2 * suf a s.peers + 1 := by
  have hsuf := suf_live hx hxa
  rw [hk, hw]
  cases ha : after a s.peers with
  | none => exact ⟨(fun t ht => nomatch ht), by dsimp only; omega⟩
  | some b' =>
    obtain ⟨h1, h2, h3⟩ := after_some ha b.nd
    refine ⟨?_, by dsimp only; omega⟩
    intro t ht
    rw [show t = b' from List.mem_singleton.1 ht]
    exact ⟨h1, h2⟩

theorem taskOk_nil (s : St) : TaskOk s [] := ⟨(fun a ha => nomatch ha), (fun a ha => nomatch ha), trivial⟩

theorem taskOk_one {s : St} (t : Task) (ht : tep t = []) (h : ∀ a ∈ tgt t, ∃ q ∈ s.peers, q.addr = a) : TaskOk s [t] := by
  refine ⟨?_, ?_, ⟨.inr rfl, trivial⟩⟩
  · intro a ha
    simp only [List.flatMap_cons, List.flatMap_nil, List.append_nil] at ha
    exact h a ha
  · intro ep he
    simp only [List.flatMap_cons, List.flatMap_nil, List.append_nil, ht] at he
    cases he

theorem wt_congr {s s' : St} (h : ∀ a, suf a s'.peers = suf a s.peers) (ts : List Task) : wsum s' ts = wsum s ts := by
  have : wt s' = wt s := by
    funext t
    cases t with
    | scan nx d => cases nx <;> simp [wt, h]
    | retry nx => cases nx <;> simp [wt, h]
    | _ => rfl
  simp [wsum, this]

theorem suf_set (a b : Nat) (f : Peer → Peer) (hf : ∀ p, (f p).addr = p.addr) (l : List Peer) :
    suf a (l.map fun p => if p.addr == b then f p else p) = suf a l := by
  induction l with
  | nil => rfl
  | cons p l ih =>
    have : (if p.addr == b then f p else p).addr = p.addr := by split <;> simp [hf]
    simp only [List.map_cons, suf, this, List.length_map, ih]

theorem set_safe {s : St} (w : Safe s) (a : Nat) (f : Peer → Peer) (hf : ∀ p, (f p).addr = p.addr) : Safe (set s a f) := by
  refine ⟨?_, w.as⟩
  intro x hx
  obtain ⟨p, hp, rfl⟩ := w.ev x hx
  refine ⟨_, List.mem_map.2 ⟨p, hp, rfl⟩, ?_⟩
  split <;> simp [hf]

theorem stepTask_safe {c : Cfg} {hand : List Msg} {o : Or} {s : St} {t : Task} {ts : List Task} (hq : Quiet c) (b : Base c hand s)
    (w : Safe s) (h : TaskOk s (t :: ts)) :
    ∃ r, stepTask c o s t = .ok r ∧ Safe r.1 ∧ TaskOk r.1 (r.2 ++ ts) ∧ pot r.1 (r.2 ++ ts) + 1 ≤ pot s (t :: ts) := by
  have htl := taskOk_tail h
  cases t with
  | conn ep fr =>
    rw [stepTask]
    cases hg : getPeer s ep with
    | none =>
      refine ⟨_, rfl, w, by simpa using htl, ?_⟩
      simp only [pot, wsum, List.nil_append, List.map_cons, List.sum_cons, wt]
      omega
    | some p =>
      obtain ⟨hp, he⟩ := getPeer_some hg
      obtain ⟨s', h1, h2, h3, h4⟩ := close_safe hq b w h ep fr p true (if ep.tcp || ep.sess != 0 then [] else [.conn ep fr]) hp he rfl
        (by split <;> simp) rfl rfl (fun e => nomatch e)
      refine ⟨(s', _), ?_, h2, h3, h4⟩
      dsimp only
      rw [h1]; rfl
  | rm ep n =>
    rw [stepTask]
    cases hg : getPeer s ep with
    | none =>
      have : ∃ s', dropEvents (memOf s) ep s = .ok s' ∧ Safe s' ∧ s'.peers = s.peers := by
        unfold dropEvents
        obtain ⟨r, hr⟩ := drop_ok (memOf s) ep s.q (by
          intro a ha
          obtain ⟨x, hx, rfl⟩ := w.ev a ha
          exact ⟨x.ep, by unfold memOf; rw [at_mem b.nd hx]; rfl⟩)
        rw [hr]
        refine ⟨_, rfl, ⟨?_, w.as⟩, rfl⟩
        intro a ha
        dsimp only at ha
        rw [drop_fst _ _ _ hr] at ha
        exact w.ev a (ha.imp (fun h => (List.mem_filter.1 h).1) (fun h => (List.mem_filter.1 h).1))
      obtain ⟨s', h1, h2, h3⟩ := this
      refine ⟨(s', []), by dsimp only; rw [h1]; rfl, h2, ?_, ?_⟩
      · rw [List.nil_append]
        exact ⟨by rw [h3]; exact htl.live, by rw [h3]; exact htl.apart, htl.last⟩
      · have := wt_congr (s := s) (s' := s') (fun a => by rw [h3]) ts
        dsimp only
        rw [List.nil_append]
        unfold pot
        rw [this, h3]
        simp only [wsum, List.map_cons, List.sum_cons, wt]
        omega
    | some p =>
      obtain ⟨hp, he⟩ := getPeer_some hg
      obtain ⟨s', h1, h2, h3, h4⟩ := close_safe hq b w h ep false p n (if ep.tcp || ep.sess != 0 then [] else [.rm ep n]) hp he rfl
        (by split <;> simp) rfl rfl (fun e => nomatch e)
      refine ⟨(s', _), ?_, h2, h3, h4⟩
      dsimp only
      rw [h1]; rfl
  | scan nx d =>
    cases nx with
    | none =>
      refine ⟨_, rfl, w, by simpa using htl, ?_⟩
      simp only [pot, wsum, List.nil_append, List.map_cons, List.sum_cons, wt]
      omega
    | some a =>
      have hno : ts = [] := by
        rcases h.last.1 with h | h
        · cases h.1
        · exact h
      subst hno
      obtain ⟨x, hx, hxa⟩ := h.live a (by rw [List.flatMap_cons]; exact List.mem_append.2 (.inl (List.mem_singleton.2 rfl)))
      have hat : at? s a = some x := by rw [← hxa]; exact at_mem b.nd hx
      obtain ⟨hnx, hwt⟩ := next_ok b hx hxa (fun y => .scan y d) (fun y => by cases y <;> rfl) (fun y => by cases y <;> rfl)
      have h1 := taskOk_one (.scan (after a s.peers) d) rfl (fun t ht => (hnx t ht).1)
      rw [stepTask, hat]
      dsimp only
      split
      · refine ⟨_, rfl, w, ⟨?_, ?_, ?_⟩, ?_⟩
        · intro t ht
          exact h1.live t (by simpa [tgt] using ht)
        · intro ep he t ht q hq' hqa
          simp only [List.cons_append, List.nil_append, List.flatMap_cons, List.flatMap_nil, List.append_nil] at ht he
          rcases List.mem_append.1 ht with ht' | ht'
          · cases ht'
          · have hne := (hnx t ht').2
            rcases List.mem_append.1 he with he | he
            · rw [show ep = x.ep from List.mem_singleton.1 he]
              cases hc : eqEp q.ep x.ep with
              | false => rfl
              | true =>
                have := pairwise_ne b.pw hq' hx hc
                subst this
                exact absurd (hqa.symm.trans hxa) hne
            · cases he
        · exact ⟨.inl ⟨rfl, (fun e => nomatch e)⟩, h1.last⟩
        · simp only [pot, wsum, List.cons_append, List.nil_append, List.map_cons, List.map_nil, List.sum_cons, List.sum_nil]
          simp only [wt] at hwt ⊢
          omega
      · refine ⟨_, rfl, w, h1, ?_⟩
        simp only [pot, wsum, List.cons_append, List.nil_append, List.map_cons, List.map_nil, List.sum_cons, List.sum_nil]
        simp only [wt] at hwt ⊢
        omega
  | retry nx =>
    cases nx with
    | none =>
      refine ⟨_, rfl, w, by simpa using htl, ?_⟩
      simp only [pot, wsum, List.nil_append, List.map_cons, List.sum_cons, wt]
      omega
    | some a =>
      have hno : ts = [] := by
        rcases h.last.1 with h | h
        · cases h.1
        · exact h
      subst hno
      obtain ⟨x, hx, hxa⟩ := h.live a (by rw [List.flatMap_cons]; exact List.mem_append.2 (.inl (List.mem_singleton.2 rfl)))
      have hat : at? s a = some x := by rw [← hxa]; exact at_mem b.nd hx
      obtain ⟨hnx, hwt⟩ := next_ok b hx hxa (fun y => .retry y) (fun y => by cases y <;> rfl) (fun y => by cases y <;> rfl)
      have h1 := taskOk_one (.retry (after a s.peers)) rfl (fun t ht => (hnx t ht).1)
      have hpot : pot s ([.retry (after a s.peers)] ++ []) + 1 ≤ pot s [.retry (some a)] := by
        simp only [pot, wsum, List.cons_append, List.nil_append, List.map_cons, List.map_nil, List.sum_cons, List.sum_nil]
        simp only [wt] at hwt ⊢
        omega
      rw [stepTask, hat]
      dsimp only
      split
      · exact ⟨_, rfl, w, h1, hpot⟩
      · split
        · exact ⟨_, rfl, w, h1, hpot⟩
        · exact ⟨_, rfl, w, h1, hpot⟩
        · refine ⟨_, rfl, set_safe w _ _ (fun _ => rfl), ?_, ?_⟩
          · refine taskOk_one _ rfl ?_
            intro t ht
            obtain ⟨q, hq', rfl⟩ := (hnx t ht).1
            refine ⟨_, List.mem_map.2 ⟨q, hq', rfl⟩, ?_⟩
            split <;> rfl
          · have := wt_congr (s := s) (s' := set s a fun p => { p with over := true })
              (fun b => suf_set b a (fun p => { p with over := true }) (fun _ => rfl) s.peers) ([.retry (after a s.peers)] ++ [])
            unfold pot at hpot ⊢
            dsimp only
            rw [this]
            simp only [set, List.length_map]
            exact hpot
        · obtain ⟨s', g1, g2⟩ := freeCore_safe b w x false false
          have e := (freeCore_eff g1).1
          refine ⟨(s', _), by rw [g1]; rfl, g2, ?_, ?_⟩
          · dsimp only
            rw [List.append_nil]
            refine taskOk_free h1 ?_ e ?_
            · intro t ht
              simp only [List.flatMap_cons, List.flatMap_nil, List.append_nil] at ht
              rw [hxa]
              exact (hnx t ht).2
            · intro y hy
              rcases quiet_notified hq x.ep true with hn | hn <;> rw [hn] at hy
              · cases hy
              · rw [show y = Task.rm x.ep false from List.mem_singleton.1 hy]
                refine ⟨⟨rfl, (fun e => nomatch e)⟩, ?_⟩
                intro ep he t ht q hq' hqa
                simp only [List.flatMap_cons, List.flatMap_nil, List.append_nil] at ht
                rw [show ep = x.ep from List.mem_singleton.1 he]
                cases hc : eqEp q.ep x.ep with
                | false => rfl
                | true =>
                  have := pairwise_ne b.pw hq' hx hc
                  subst this
                  exact absurd (hqa.symm.trans hxa) (hnx t ht).2
          · have hl := length_free hx e
            have hw := wsum_free e [.retry (after a s.peers)]
            have h3 : wsum s' (notified c x.ep true) ≤ 1 := by
              rcases quiet_notified hq x.ep true with hn | hn <;> rw [hn] <;> simp [wsum, wt]
            dsimp only
            unfold pot at hpot ⊢
            rw [wsum_append, wsum_append]
            simp only [List.append_nil] at hpot
            have : wsum s' [] = 0 := rfl
            omega
  | pop =>
    have hno : ts = [] := by
      rcases h.last.1 with h | h
      · exact absurd rfl h.2
      · exact h
    subst hno
    rw [stepTask]
    split
    · refine ⟨_, rfl, w, taskOk_nil _, ?_⟩
      simp only [pot, wsum, List.nil_append, List.map_cons, List.map_nil, List.sum_cons, List.sum_nil, wt]
      omega
    · rename_i p l hp
      have hx : p ∈ s.peers := by rw [hp]; exact List.mem_cons_self ..
      obtain ⟨s', g1, g2⟩ := freeCore_safe b w p false true
      have e := (freeCore_eff g1).1
      refine ⟨(s', _), by rw [g1]; rfl, g2, ?_, ?_⟩
      · dsimp only
        rw [List.append_nil]
        refine taskOk_free (taskOk_one .pop rfl (fun a ha => nomatch ha)) (fun a ha => nomatch ha) e ?_
        intro y hy
        rcases quiet_notified hq p.ep true with hn | hn <;> rw [hn] at hy
        · cases hy
        · rw [show y = Task.rm p.ep false from List.mem_singleton.1 hy]
          exact ⟨⟨rfl, (fun e => nomatch e)⟩, fun ep he a ha => nomatch ha⟩
      · have hl := length_free hx e
        have h3 : wsum s' (notified c p.ep true) ≤ 1 := by
          rcases quiet_notified hq p.ep true with hn | hn <;> rw [hn] <;> simp [wsum, wt]
        dsimp only
        unfold pot
        rw [wsum_append, wsum_append]
        simp only [wsum, List.map_cons, List.map_nil, List.sum_cons, List.sum_nil, wt] at h3 ⊢
        omega

theorem work_safe {c : Cfg} {hand : List Msg} {o : Or} (hq : Quiet c) (n : Nat) (ts : List Task) {s : St} (b : Base c hand s) (w : Safe s)
    (h : TaskOk s ts) (hn : pot s ts ≤ n) : ∃ s', work c o n ts s = .ok s' ∧ Safe s' := by
  induction n generalizing ts s with
  | zero =>
    cases ts with
    | nil => exact ⟨s, rfl, w⟩
    | cons t ts =>
      obtain ⟨r, -, -, -, h4⟩ := stepTask_safe (o := o) hq b w h
      omega
  | succ n ih =>
    cases ts with
    | nil => exact ⟨s, rfl, w⟩
    | cons t ts =>
      obtain ⟨r, h1, h2, h3, h4⟩ := stepTask_safe (o := o) hq b w h
      rw [work, h1]
      exact ih _ (stepTask_base b h1) h2 h3 (by omega)

theorem perform_one {c : Cfg} {hand : List Msg} {o : Or} (hq : Quiet c) (t : Task) {s : St} (b : Base c hand s) (w : Safe s)
    (h : TaskOk s [t]) : ∃ s', perform c o [t] s = .ok s' ∧ Safe s' := by
  refine work_safe hq _ _ b w h ?_
  have : wt s t ≤ 2 * s.peers.length + 1 := by
    cases t with
    | scan nx d =>
      cases nx with
      | none => simp only [wt]; omega
      | some a => have := suf_le a s.peers; simp only [wt]; omega
    | retry nx =>
      cases nx with
      | none => simp only [wt]; omega
      | some a => have := suf_le a s.peers; simp only [wt]; omega
    | _ => simp only [wt]; omega
  simp only [pot, wsum, List.map_cons, List.map_nil, List.sum_cons, List.sum_nil, fuel]
  omega

theorem perform_notified {c : Cfg} {hand : List Msg} {o : Or} (hq : Quiet c) (ep : Ep) (n : Bool) {s : St} (b : Base c hand s) (w : Safe s) :
    ∃ s', perform c o (notified c ep n) s = .ok s' ∧ Safe s' := by
  rcases quiet_notified hq ep n with hn | hn <;> rw [hn]
  · refine ⟨s, ?_, w⟩
    unfold perform
    cases fuel s <;> rfl
  · refine perform_one hq _ b w ⟨?_, ?_, ⟨.inr rfl, trivial⟩⟩
    · intro a ha; cases ha
    · intro ep he a ha; cases ha

theorem freePeer_safe {c : Cfg} {hand : List Msg} {o : Or} (hq : Quiet c) {s : St} (b : Base c hand s) (w : Safe s) (p : Peer)
    (hp : Freeable s p) (i f n : Bool) : ∃ s', freePeer c o p i f n s = .ok s' ∧ Safe s' := by
  obtain ⟨s1, h1, h2⟩ := freeCore_safe b w p i f
  unfold freePeer
  rw [h1]
  exact perform_notified hq p.ep n (freeCore_base b hp h1) h2

end Verif.TlsPeers
