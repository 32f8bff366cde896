import Verif.TlsPeers.Spec

/-! Lemmas about (D)TLS sessions, area TlsPeers. -/

namespace Verif.TlsPeers

open Spec

/-! ### Outcomes -/

theorem bind_ok {α β : Type} {x : Out α} {f : α → Out β} {y : β} (h : x.bind f = .ok y) :
    ∃ a, x = .ok a ∧ f a = .ok y := by
  cases x with
  | ok a => exact ⟨a, rfl, h⟩
  | ub => cases h

/-! ### Endpoints -/

theorem eqEp_refl (a : Ep) : eqEp a a = true := by simp [eqEp]

theorem eqEp_symm (a b : Ep) : eqEp a b = eqEp b a := by
  rw [Bool.eq_iff_iff]
  simp only [eqEp, Bool.and_eq_true, Bool.or_eq_true, beq_iff_eq]
  constructor <;> (intro h; obtain ⟨⟨⟨h1, h2⟩, h3⟩, h4⟩ := h; exact ⟨⟨⟨h1.symm, h2.symm⟩, h3.symm⟩, by omega⟩)

theorem eqEp_tcp {a b : Ep} (h : eqEp a b = true) : a.tcp = b.tcp ∧ a.dev = b.dev := by
  simp only [eqEp, Bool.and_eq_true, beq_iff_eq] at h
  exact ⟨h.1.2, h.1.1.1⟩

/-! ### Peers -/

theorem at_some {s : St} {a : Nat} {p : Peer} (h : at? s a = some p) : p ∈ s.peers ∧ p.addr = a := by
  refine ⟨List.mem_of_find?_eq_some h, ?_⟩
  simpa using List.find?_some h

theorem getPeer_some {s : St} {ep : Ep} {p : Peer} (h : getPeer s ep = some p) : p ∈ s.peers ∧ eqEp p.ep ep = true :=
  ⟨List.mem_of_find?_eq_some h, List.find?_some (p := fun p : Peer => eqEp p.ep ep) h⟩

theorem getPeer_none {s : St} {ep : Ep} (h : getPeer s ep = none) : ∀ p ∈ s.peers, eqEp p.ep ep = false := by
  intro p hp
  have := List.find?_eq_none.1 h p hp
  simpa using this

theorem live_iff {s : St} {a : Nat} : live s a = true ↔ ∃ p ∈ s.peers, p.addr = a := by
  simp [live]

theorem at_live {s : St} {a : Nat} (h : live s a = true) : ∃ p, at? s a = some p := by
  obtain ⟨p, hp, ha⟩ := live_iff.1 h
  cases hf : at? s a with
  | some p => exact ⟨p, rfl⟩
  | none =>
    have := List.find?_eq_none.1 hf p hp
    simp [ha] at this

theorem nodup_eq {l : List Peer} (h : (l.map (·.addr)).Nodup) {p q : Peer} (hp : p ∈ l) (hq : q ∈ l) (e : p.addr = q.addr) :
    p = q := by
  induction l with
  | nil => cases hp
  | cons x l ih =>
    rw [List.map_cons, List.nodup_cons] at h
    rcases List.mem_cons.1 hp with e1 | hp'
    · rcases List.mem_cons.1 hq with e2 | hq'
      · rw [e1, e2]
      · exact absurd (List.mem_map.2 ⟨q, hq', by rw [← e, e1]⟩) h.1
    · rcases List.mem_cons.1 hq with e2 | hq'
      · exact absurd (List.mem_map.2 ⟨p, hp', by rw [e, e2]⟩) h.1
      · exact ih h.2 hp' hq'

theorem at_mem {s : St} (h : (s.peers.map (·.addr)).Nodup) {p : Peer} (hp : p ∈ s.peers) : at? s p.addr = some p := by
  obtain ⟨q, hq⟩ := at_live (live_iff.2 ⟨p, hp, rfl⟩)
  have := at_some hq
  rw [hq, nodup_eq h this.1 hp this.2]

theorem pairwise_ne {l : List Peer} (h : l.Pairwise fun p q => eqEp p.ep q.ep = false) {p q : Peer} (hp : p ∈ l) (hq : q ∈ l)
    (e : eqEp p.ep q.ep = true) : p = q := by
  induction l with
  | nil => cases hp
  | cons x l ih =>
    rw [List.pairwise_cons] at h
    rcases List.mem_cons.1 hp with e1 | hp'
    · rcases List.mem_cons.1 hq with e2 | hq'
      · rw [e1, e2]
      · rw [e1, h.1 q hq'] at e; cases e
    · rcases List.mem_cons.1 hq with e2 | hq'
      · rw [eqEp_symm, e2, h.1 p hp'] at e; cases e
      · exact ih h.2 hp' hq'

/-! ### Queues -/

/-- The messages of a peer. -/
def pq (p : Peer) : List Msg := p.sendq ++ p.recvq

theorem count_map_set {l : List Peer} (h : (l.map (·.addr)).Nodup) (f : Peer → Peer) {p : Peer} (hp : p ∈ l) (m : Msg) :
    ((l.map fun x => if x.addr == p.addr then f x else x).flatMap pq).count m + (pq p).count m =
      (l.flatMap pq).count m + (pq (f p)).count m := by
  induction l with
  | nil => cases hp
  | cons x l ih =>
    rw [List.map_cons, List.nodup_cons] at h
    simp only [List.map_cons, List.flatMap_cons, List.count_append]
    rcases List.mem_cons.1 hp with rfl | hp
    · have : (l.map fun x => if x.addr == p.addr then f x else x) = l := by
        rw [List.map_congr_left (g := id), List.map_id]
        intro y hy
        have : y.addr ≠ p.addr := fun e => h.1 (List.mem_map.2 ⟨y, hy, e⟩)
        simp [this]
      rw [this]
      simp only [beq_self_eq_true, if_true]
      omega
    · have : x.addr ≠ p.addr := fun e => h.1 (List.mem_map.2 ⟨p, hp, e.symm⟩)
      have h2 := ih h.2 hp
      have hb : (x.addr == p.addr) = false := by simpa using this
      rw [hb]
      simp only [Bool.false_eq_true, if_false]
      omega

theorem count_filter {l : List Peer} (h : (l.map (·.addr)).Nodup) {p : Peer} (hp : p ∈ l) (m : Msg) :
    ((l.filter fun x => x.addr != p.addr).flatMap pq).count m + (pq p).count m = (l.flatMap pq).count m := by
  induction l with
  | nil => cases hp
  | cons x l ih =>
    rw [List.map_cons, List.nodup_cons] at h
    rcases List.mem_cons.1 hp with rfl | hp
    · have : (l.filter fun x => x.addr != p.addr) = l := by
        rw [List.filter_eq_self]
        intro y hy
        have : y.addr ≠ p.addr := fun e => h.1 (List.mem_map.2 ⟨y, hy, e⟩)
        simpa using this
      rw [List.filter_cons_of_neg (by simp), this, List.flatMap_cons, List.count_append]
      omega
    · have : x.addr ≠ p.addr := fun e => h.1 (List.mem_map.2 ⟨p, hp, e.symm⟩)
      rw [List.filter_cons_of_pos (by simpa using this)]
      simp only [List.flatMap_cons, List.count_append]
      have := ih h.2 hp
      omega

theorem filter_absent {l : List Peer} {a : Nat} (h : ∀ x ∈ l, x.addr ≠ a) : (l.filter fun x => x.addr != a) = l := by
  rw [List.filter_eq_self]
  intro y hy
  simpa using h y hy

/-! ### Dropping events -/

theorem drop_cons (mem : Nat → Option Ep) (ep : Ep) (l : List Ev) {r : List Ev × List Msg} (h : drop mem ep l = .ok r) (m : Msg) :
    (l.flatMap evMsgs).count m = (r.1.flatMap evMsgs).count m + r.2.count m := by
  induction l generalizing r with
  | nil => cases h; simp
  | cons e l ih =>
    cases e with
    | recv x =>
      rw [drop] at h
      obtain ⟨r1, h1, h2⟩ := bind_ok h
      have := ih h1
      cases h2
      split <;> simp only [List.flatMap_cons, evMsgs, List.count_append, List.count_cons, List.count_nil] <;> omega
    | send x =>
      rw [drop] at h
      obtain ⟨r1, h1, h2⟩ := bind_ok h
      have := ih h1
      cases h2
      split <;> simp only [List.flatMap_cons, evMsgs, List.count_append, List.count_cons, List.count_nil] <;> omega
    | timer =>
      rw [drop] at h
      obtain ⟨r1, h1, h2⟩ := bind_ok h
      have := ih h1
      cases h2
      simpa [evMsgs] using this
    | closeAll d =>
      rw [drop] at h
      obtain ⟨r1, h1, h2⟩ := bind_ok h
      have := ih h1
      cases h2
      simpa [evMsgs] using this
    | read a =>
      rw [drop] at h
      split at h
      · cases h
      · obtain ⟨r1, h1, h2⟩ := bind_ok h
        have := ih h1
        cases h2
        split <;> simpa [evMsgs] using this
    | write a =>
      rw [drop] at h
      split at h
      · cases h
      · obtain ⟨r1, h1, h2⟩ := bind_ok h
        have := ih h1
        cases h2
        split <;> simpa [evMsgs] using this

/-- What is left after dropping. -/
def keeps (mem : Nat → Option Ep) (ep : Ep) : Ev → Bool
  | .read a => (mem a).all fun e => !eqEp e ep
  | .write a => (mem a).all fun e => !eqEp e ep
  | .recv m => !eqEp m.ep ep
  | .send m => !eqEp m.ep ep
  | _ => true

theorem drop_fst (mem : Nat → Option Ep) (ep : Ep) (l : List Ev) {r : List Ev × List Msg} (h : drop mem ep l = .ok r) :
    r.1 = l.filter (keeps mem ep) := by
  induction l generalizing r with
  | nil => cases h; rfl
  | cons e l ih =>
    cases e with
    | recv x =>
      rw [drop] at h
      obtain ⟨r1, h1, h2⟩ := bind_ok h
      have := ih h1
      cases h2
      cases he : eqEp x.ep ep <;> simp [keeps, he, this]
    | send x =>
      rw [drop] at h
      obtain ⟨r1, h1, h2⟩ := bind_ok h
      have := ih h1
      cases h2
      cases he : eqEp x.ep ep <;> simp [keeps, he, this]
    | timer =>
      rw [drop] at h
      obtain ⟨r1, h1, h2⟩ := bind_ok h
      have := ih h1
      cases h2
      rw [this, List.filter_cons_of_pos rfl]
    | closeAll d =>
      rw [drop] at h
      obtain ⟨r1, h1, h2⟩ := bind_ok h
      have := ih h1
      cases h2
      rw [this, List.filter_cons_of_pos rfl]
    | read a =>
      rw [drop] at h
      split at h
      · cases h
      · rename_i e hm
        obtain ⟨r1, h1, h2⟩ := bind_ok h
        have := ih h1
        cases h2
        cases he : eqEp e ep <;> simp [keeps, he, hm, this]
    | write a =>
      rw [drop] at h
      split at h
      · cases h
      · rename_i e hm
        obtain ⟨r1, h1, h2⟩ := bind_ok h
        have := ih h1
        cases h2
        cases he : eqEp e ep <;> simp [keeps, he, hm, this]

theorem drop_ok (mem : Nat → Option Ep) (ep : Ep) (l : List Ev)
    (h : ∀ a, (.read a ∈ l ∨ .write a ∈ l) → ∃ e, mem a = some e) : ∃ r, drop mem ep l = .ok r := by
  induction l with
  | nil => exact ⟨_, rfl⟩
  | cons e l ih =>
    obtain ⟨r, hr⟩ := ih fun a ha => h a (ha.imp (List.mem_cons_of_mem _) (List.mem_cons_of_mem _))
    cases e with
    | read a =>
      obtain ⟨e, he⟩ := h a (.inl (List.mem_cons_self ..))
      rw [drop, he, hr]; exact ⟨_, rfl⟩
    | write a =>
      obtain ⟨e, he⟩ := h a (.inr (List.mem_cons_self ..))
      rw [drop, he, hr]; exact ⟨_, rfl⟩
    | recv x => rw [drop, hr]; exact ⟨_, rfl⟩
    | send x => rw [drop, hr]; exact ⟨_, rfl⟩
    | timer => rw [drop, hr]; exact ⟨_, rfl⟩
    | closeAll d => rw [drop, hr]; exact ⟨_, rfl⟩

/-! ### The invariant of all runs -/

/-- The memory of peers is distinct, their endpoints differ, no reference of a message
is lost (`hand`: those a function has at hand), the check for inactivity comes. -/
structure Base (c : Cfg) (hand : List Msg) (s : St) : Prop where
  nd : (s.peers.map (·.addr)).Nodup
  pw : s.peers.Pairwise fun p q => eqEp p.ep q.ep = false
  cons : ∀ m, s.inp.count m = (s.q.flatMap evMsgs).count m + (s.peers.flatMap pq).count m + s.rel.count m + hand.count m
  idle : ∀ p ∈ s.peers, p.ep.tcp = false →
    ∃ d, (p.addr, d) ∈ s.inact ∧ d ≤ s.clock + c.timeout ∧ (p.ts = 0 ∨ d < p.ts + 2 * c.timeout)
  ts : ∀ p ∈ s.peers, p.ts ≤ s.clock

/-- A new peer that is not in the list, or one of the list. -/
def Freeable (s : St) (p : Peer) : Prop := p ∈ s.peers ∨ (live s p.addr = false ∧ p.sendq = [] ∧ p.recvq = [])

theorem map_addr_filter_nodup {l : List Peer} (h : (l.map (·.addr)).Nodup) (f : Peer → Bool) : ((l.filter f).map (·.addr)).Nodup :=
  h.sublist (List.Sublist.map _ List.filter_sublist)

theorem free_count {s : St} (nd : (s.peers.map (·.addr)).Nodup) {p : Peer} (h : Freeable s p) (m : Msg) :
    ((s.peers.filter fun x => x.addr != p.addr).flatMap pq).count m + (p.sendq.count m + p.recvq.count m) =
      (s.peers.flatMap pq).count m := by
  rcases h with h | ⟨h, h1, h2⟩
  · have := count_filter nd h m
    rw [pq, List.count_append] at this
    omega
  · rw [filter_absent, h1, h2]
    · simp
    · intro x hx e
      have := live_iff.2 ⟨x, hx, e⟩
      rw [this] at h; cases h

/-- The effect of `oc_tls_free_peer` before the notification. -/
theorem freeCore_eff {p : Peer} {i f : Bool} {s s' : St} (h : freeCore p i f s = .ok s') :
    s'.peers = s.peers.filter (fun x => x.addr != p.addr) ∧
    s'.inact = (if i then s.inact else s.inact.filter fun x => x.1 != p.addr) ∧
    s'.clock = s.clock ∧ s'.inp = s.inp ∧ s'.dos = s.dos ∧ s'.oxm = s.oxm ∧ s'.out = s.out ∧ s'.next = s.next ∧
    s'.resets = (if p.doc && s.dos p.ep.dev == .rfotm && !f then s.resets ++ [p.ep.dev] else s.resets) ∧
    s'.ups = s.ups.filter (fun e => !eqEp e p.ep) ∧
    s'.asserts = s.asserts.filter (fun x => !eqEp x.2 p.ep) ∧
    (∃ mem, (∀ a, mem a = if a = p.addr then some p.ep else ((s.peers.filter fun x => x.addr != p.addr).find? fun x => x.addr == a).map (·.ep)) ∧
      s'.q = s.q.filter (keeps mem p.ep) ++ ((s.asserts.filter fun x => eqEp x.2 p.ep).map fun x => Ev.write x.1)) ∧
    (∀ m, (s.q.flatMap evMsgs).count m + s.rel.count m + (p.sendq.count m + p.recvq.count m) =
      (s'.q.flatMap evMsgs).count m + s'.rel.count m) := by
  unfold freeCore at h
  dsimp only at h
  obtain ⟨s2, h1, h2⟩ := bind_ok h
  unfold dropEvents at h1
  obtain ⟨r, h3, h4⟩ := bind_ok h1
  cases h4
  cases h2
  have hc := drop_cons _ _ _ h3
  have hf := drop_fst _ _ _ h3
  refine ⟨rfl, rfl, rfl, rfl, rfl, rfl, rfl, rfl, rfl, rfl, rfl, ⟨_, fun a => rfl, ?_⟩, ?_⟩
  · simp only [endAsserts]
    rw [hf]
    rfl
  · intro m
    have := hc m
    simp only [endAsserts, List.flatMap_append, List.count_append] at this ⊢
    have hz : ((List.map (fun x => Ev.write x.fst) (s.asserts.filter fun x => eqEp x.2 p.ep)).flatMap evMsgs).count m = 0 := by
      rw [List.count_eq_zero]
      intro hm
      obtain ⟨e, he, hm⟩ := List.mem_flatMap.1 hm
      obtain ⟨x, _, rfl⟩ := List.mem_map.1 he
      cases hm
    rw [hz]
    omega

theorem freeCore_base {c : Cfg} {hand : List Msg} {p : Peer} {i f : Bool} {s s' : St} (b : Base c hand s) (hp : Freeable s p)
    (h : freeCore p i f s = .ok s') : Base c hand s' := by
  obtain ⟨e1, e2, e3, e4, -, -, -, -, -, -, -, -, e5⟩ := freeCore_eff h
  refine ⟨?_, ?_, ?_, ?_, ?_⟩
  · rw [e1]; exact map_addr_filter_nodup b.nd _
  · rw [e1]; exact b.pw.sublist List.filter_sublist
  · intro m
    have h1 := b.cons m
    have h2 := e5 m
    have h3 := free_count b.nd hp m
    rw [e1, e4]
    omega
  · intro x hx ht
    rw [e1, List.mem_filter] at hx
    obtain ⟨d, hd, h1⟩ := b.idle x hx.1 ht
    refine ⟨d, ?_, by rw [e3]; exact h1⟩
    rw [e2]
    split
    · exact hd
    · exact List.mem_filter.2 ⟨hd, hx.2⟩
  · intro x hx
    rw [e1, List.mem_filter] at hx
    rw [e3]
    exact b.ts x hx.1

/-- Updates of a peer that keep what it is. -/
theorem set_base {c : Cfg} {hand : List Msg} {s : St} (b : Base c hand s) (a : Nat) (f : Peer → Peer) (h1 : ∀ p, (f p).addr = p.addr)
    (h2 : ∀ p, (f p).ep = p.ep) (h3 : ∀ p, pq (f p) = pq p) (h4 : ∀ p, (f p).ts = p.ts) : Base c hand (set s a f) := by
  have ha : ∀ p : Peer, (if p.addr == a then f p else p).addr = p.addr := by intro p; split <;> simp [h1]
  have he : ∀ p : Peer, (if p.addr == a then f p else p).ep = p.ep := by intro p; split <;> simp [h2]
  have hq : ∀ p : Peer, pq (if p.addr == a then f p else p) = pq p := by intro p; split <;> simp [h3]
  have ht : ∀ p : Peer, (if p.addr == a then f p else p).ts = p.ts := by intro p; split <;> simp [h4]
  refine ⟨?_, ?_, ?_, ?_, ?_⟩
  · simp only [set, List.map_map, Function.comp_def, ha]; exact b.nd
  · simp only [set, List.pairwise_map, he]; exact b.pw
  · intro m
    simp only [set, List.flatMap_map, hq]; exact b.cons m
  · intro p hp htc
    obtain ⟨x, hx, rfl⟩ := List.mem_map.1 hp
    rw [he] at htc
    rw [ha, ht]
    exact b.idle x hx htc
  · intro p hp
    obtain ⟨x, hx, rfl⟩ := List.mem_map.1 hp
    rw [ht]
    exact b.ts x hx

theorem dropEvents_base {c : Cfg} {hand : List Msg} {mem : Nat → Option Ep} {ep : Ep} {s s' : St} (b : Base c hand s)
    (h : dropEvents mem ep s = .ok s') : Base c hand s' := by
  unfold dropEvents at h
  obtain ⟨r, h3, h4⟩ := bind_ok h
  cases h4
  refine ⟨b.nd, b.pw, ?_, b.idle, b.ts⟩
  intro m
  have := drop_cons _ _ _ h3 m
  have h1 := b.cons m
  simp only [List.count_append]
  omega

theorem stepTask_base {c : Cfg} {hand : List Msg} {o : Or} {s : St} {t : Task} {r : St × List Task} (b : Base c hand s)
    (h : stepTask c o s t = .ok r) : Base c hand r.1 := by
  cases t with
  | conn ep fr =>
    rw [stepTask] at h
    split at h
    · cases h; exact b
    · rename_i p hp
      obtain ⟨s1, h1, h2⟩ := bind_ok h
      cases h2
      exact freeCore_base b (.inl (getPeer_some hp).1) h1
  | rm ep n =>
    rw [stepTask] at h
    split at h
    · obtain ⟨s1, h1, h2⟩ := bind_ok h
      cases h2
      exact dropEvents_base b h1
    · rename_i p hp
      obtain ⟨s1, h1, h2⟩ := bind_ok h
      cases h2
      exact freeCore_base b (.inl (getPeer_some hp).1) h1
  | scan nx d =>
    cases nx with
    | none => rw [stepTask] at h; cases h; exact b
    | some a =>
      rw [stepTask] at h
      split at h
      · cases h
      · split at h <;> (cases h; exact b)
  | retry nx =>
    cases nx with
    | none => rw [stepTask] at h; cases h; exact b
    | some a =>
      rw [stepTask] at h
      split at h
      · cases h
      · rename_i p hp
        split at h
        · cases h; exact b
        · split at h
          · cases h; exact b
          · cases h; exact b
          · cases h
            exact set_base b _ _ (fun _ => rfl) (fun _ => rfl) (fun _ => rfl) (fun _ => rfl)
          · obtain ⟨s1, h1, h2⟩ := bind_ok h
            cases h2
            exact freeCore_base b (.inl (at_some hp).1) h1
  | pop =>
    rw [stepTask] at h
    split at h
    · cases h; exact b
    · rename_i p l hp
      obtain ⟨s1, h1, h2⟩ := bind_ok h
      cases h2
      exact freeCore_base b (.inl (by rw [hp]; exact List.mem_cons_self ..)) h1

theorem work_base {c : Cfg} {hand : List Msg} {o : Or} (n : Nat) (ts : List Task) {s s' : St} (b : Base c hand s) (h : work c o n ts s = .ok s') : Base c hand s' := by
  induction n generalizing ts s with
  | zero =>
    cases ts with
    | nil => cases h; exact b
    | cons t ts => cases h
  | succ n ih =>
    cases ts with
    | nil => cases h; exact b
    | cons t ts =>
      rw [work] at h
      obtain ⟨r, h1, h2⟩ := bind_ok h
      exact ih _ (stepTask_base b h1) h2

theorem freePeer_base {c : Cfg} {hand : List Msg} {o : Or} {p : Peer} {i f n : Bool} {s s' : St} (b : Base c hand s) (hp : Freeable s p)
    (h : freePeer c o p i f n s = .ok s') : Base c hand s' := by
  unfold freePeer at h
  obtain ⟨s1, h1, h2⟩ := bind_ok h
  exact work_base _ _ (freeCore_base b hp h1) h2

end Verif.TlsPeers
