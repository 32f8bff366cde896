import Verif.Client.Lemmas
/-! How often the handler of a request is called. -/
namespace Verif.Client
open Verif

/-- Calls of the handler of a request. -/
def isCall (id : Nat) : Ev → Bool
  | .called j _ => j == id
  | _ => false
/-- Number of calls of the handler of request `id`. -/
def calls (id : Nat) (l : List Ev) : Nat := l.countP (isCall id)

/-- Frames that call a handler. -/
def isHandler (id : Nat) : Frame → Bool
  | .handler j _ => j == id
  | _ => false

/-- Calls made and about to be made. -/
def sum (id : Nat) (c : Conf) : Nat := calls id c.st.log + c.stack.countP (isHandler id)

/-- The request is meant to have one answer and got no Observe option. -/
def Plain (id : Nat) (l : List Ev) : Prop := .many id ∉ l ∧ .observed id ∉ l

theorem Plain.mono {id l m} (h : Plain id (l ++ m)) : Plain id l :=
  ⟨fun x => h.1 (List.mem_append_left _ x), fun x => h.2 (List.mem_append_left _ x)⟩

/-- Requests with several answers are marked as such. -/
def Fl (s : St) : Prop :=
  (∀ x ∈ s.mem, (x.multicast ∨ x.discovery ∨ x.ping) → .many x.id ∈ s.log) ∧
  (∀ id, (id, Kind.ping) ∈ s.timers → .many id ∈ s.log)

structure Inv3 (c : Conf) : Prop where
  acc : Acc c.st
  fl : Fl c.st
  disc : ∀ id stop obs ep, .afterDiscovery id stop obs ep ∈ c.stack → .many id ∈ c.st.log
  fresh : ∀ id, c.st.next ≤ id → sum id c = 0
  once : ∀ id, Plain id c.st.log → sum id c ≤ 1
  idle : ∀ x ∈ c.st.cbs, Plain x.id c.st.log → (x.ref = false → sum x.id c = 0) ∧
    (sum x.id c = 1 → (∃ pong ep, .afterInvoke x.id none false pong ep ∈ c.stack) ∧
      ∀ obs sep pong ep, .afterInvoke x.id obs sep pong ep ∈ c.stack → obs = none ∧ sep = false)

/-- Frames without influence on the invariant. -/
def neutral : Frame → Bool
  | .handler .. => false
  | .afterInvoke .. => false
  | .afterDiscovery .. => false
  | _ => true

theorem core_count {k k' : List Frame} (h : k.filter (!neutral ·) = k'.filter (!neutral ·)) (id) :
    k.countP (isHandler id) = k'.countP (isHandler id) := by
  have key : ∀ l : List Frame, l.countP (isHandler id) = (l.filter (!neutral ·)).countP (isHandler id) := by
    intro l
    induction l with
    | nil => rfl
    | cons f l ih =>
      rw [List.countP_cons, List.filter_cons, ih]
      cases f <;> simp [neutral, isHandler, List.countP_cons]
  rw [key k, key k', h]

theorem core_mem {k k' : List Frame} (h : k.filter (!neutral ·) = k'.filter (!neutral ·)) {f}
    (hf : neutral f = false) (hm : f ∈ k) : f ∈ k' := by
  have : f ∈ k.filter (!neutral ·) := List.mem_filter.2 ⟨hm, by simp [hf]⟩
  rw [h] at this
  exact (List.mem_filter.1 this).1

theorem Inv3.core {k k' s} (h : Inv3 ⟨k, s⟩) (e : k'.filter (!neutral ·) = k.filter (!neutral ·)) : Inv3 ⟨k', s⟩ := by
  have hs : ∀ id, sum id ⟨k', s⟩ = sum id ⟨k, s⟩ := by
    intro id
    unfold sum
    rw [core_count e id]
  refine ⟨h.acc, h.fl, ?_, ?_, ?_, ?_⟩
  · intro id stop obs ep hm
    exact h.disc id stop obs ep (core_mem e rfl hm)
  · intro id hn; rw [hs]; exact h.fresh id hn
  · intro id hp; rw [hs]; exact h.once id hp
  · intro x hx hp
    rw [hs]
    have := h.idle x hx hp
    refine ⟨this.1, fun h1 => ?_⟩
    obtain ⟨⟨pong, ep, hm⟩, h2⟩ := this.2 h1
    exact ⟨⟨pong, ep, core_mem e.symm rfl hm⟩, fun obs sep pong ep hm => h2 obs sep pong ep (core_mem e rfl hm)⟩

/-- Changes that call no handler. -/
structure Evo (s s' : St) : Prop where
  log : ∃ ext, s'.log = s.log ++ ext ∧ ∀ id code, .called id code ∉ ext
  next : s.next ≤ s'.next
  cbs : ∀ x ∈ s'.cbs, s.next ≤ x.id ∨ ∃ y ∈ s.cbs, y.id = x.id ∧ (x.ref = false → y.ref = false)
  fl : Fl s → Fl s'

theorem Evo.refl (s) : Evo s s :=
  ⟨⟨[], by simp, by simp⟩, Nat.le_refl _, fun x hx => .inr ⟨x, hx, rfl, id⟩, id⟩

theorem Evo.trans {a b c} (h : Evo a b) (k : Evo b c) : Evo a c := by
  refine ⟨?_, Nat.le_trans h.next k.next, ?_, fun f => k.fl (h.fl f)⟩
  · obtain ⟨e1, h1, h2⟩ := h.log
    obtain ⟨e2, k1, k2⟩ := k.log
    refine ⟨e1 ++ e2, by rw [k1, h1, List.append_assoc], ?_⟩
    intro id code hm
    rcases List.mem_append.1 hm with hm | hm
    · exact h2 id code hm
    · exact k2 id code hm
  · intro x hx
    rcases k.cbs x hx with hn | ⟨y, hy, e, r⟩
    · exact .inl (Nat.le_trans h.next hn)
    · rcases h.cbs y hy with hn | ⟨z, hz, e', r'⟩
      · exact .inl (by omega)
      · exact .inr ⟨z, hz, by omega, fun q => r' (r q)⟩

theorem calls_ext {l ext} (h : ∀ id code, Ev.called id code ∉ ext) (id) : calls id (l ++ ext) = calls id l := by
  unfold calls
  rw [List.countP_append]
  have : ext.countP (isCall id) = 0 := by
    rw [List.countP_eq_zero]
    intro e he
    cases e <;> simp [isCall]
    exact fun e' => h _ _ (by rw [e'] at he; exact he)
  omega

theorem Evo.inv {k s s'} (e : Evo s s') (ha : Acc s') (h : Inv3 ⟨k, s⟩) : Inv3 ⟨k, s'⟩ := by
  obtain ⟨ext, hl, hc⟩ := e.log
  have hs : ∀ id, sum id ⟨k, s'⟩ = sum id ⟨k, s⟩ := by
    intro id
    unfold sum
    dsimp only
    rw [hl, calls_ext hc]
  have hpl : ∀ id, Plain id s'.log → Plain id s.log := by
    intro id hp; rw [hl] at hp; exact hp.mono
  refine ⟨ha, e.fl h.fl, ?_, ?_, ?_, ?_⟩
  · intro id stop obs ep hm
    show _ ∈ s'.log
    rw [hl]; exact List.mem_append_left _ (h.disc id stop obs ep hm)
  · intro id hn; rw [hs]; exact h.fresh id (Nat.le_trans e.next hn)
  · intro id hp; rw [hs]; exact h.once id (hpl id hp)
  · intro x hx hp
    rw [hs]
    rcases e.cbs x hx with hn | ⟨y, hy, ei, er⟩
    · have := h.fresh x.id hn
      exact ⟨fun _ => this, fun h1 => by omega⟩
    · have := h.idle y hy (by rw [ei]; exact hpl x.id hp)
      rw [ei] at this
      exact ⟨fun hr => this.1 (er hr), this.2⟩

theorem mem_upd {x i f l} (hf : ∀ c : Cb, (f c).id = c.id) (h : x ∈ upd i f l) : ∃ y ∈ l, y.id = x.id ∧ (x = y ∨ x = f y) := by
  obtain ⟨y, hy, e⟩ := List.mem_map.1 h
  refine ⟨y, hy, ?_⟩
  split at e
  · subst e; exact ⟨(hf y).symm, .inr rfl⟩
  · subst e; exact ⟨rfl, .inl rfl⟩

/-- A change that keeps the callbacks and the log. -/
theorem evo_frame {s s' : St} (h1 : s'.cbs = s.cbs) (h2 : s'.out = s.out) (h3 : s'.next = s.next) (h4 : s'.log = s.log)
    (h5 : ∀ id, (id, Kind.ping) ∈ s'.timers → (id, Kind.ping) ∈ s.timers) : Evo s s' := by
  refine ⟨⟨[], by simp [h4], by simp⟩, by omega, fun x hx => .inr ⟨x, by rw [← h1]; exact hx, rfl, id⟩, fun f => ?_⟩
  unfold Fl St.mem at *
  rw [h1, h2, h4]
  exact ⟨f.1, fun id hm => f.2 id (h5 id hm)⟩

theorem mem_dropTimers {x id l} (h : x ∈ dropTimers id l) : x ∈ l :=
  List.mem_of_mem_erase (List.mem_of_mem_erase (List.mem_of_mem_erase h))

theorem evo_free {s s' id} (h : freeCb id s = .ok s') : Evo s s' := by
  obtain ⟨_, rfl⟩ := freeCb_ok h
  refine ⟨⟨[.freed id], rfl, by simp⟩, Nat.le_refl _, ?_, ?_⟩
  · intro x hx
    exact .inr ⟨x, (List.mem_filter.1 hx).1, rfl, fun r => r⟩
  · intro f
    refine ⟨fun x hx hf => ?_, fun i hi => List.mem_append_left _ (f.2 i (mem_dropTimers hi))⟩
    refine List.mem_append_left _ (f.1 x ?_ hf)
    rcases List.mem_append.1 hx with hx | hx
    · exact List.mem_append_left _ (List.mem_filter.1 hx).1
    · exact List.mem_append_right _ (List.mem_filter.1 hx).1

theorem evo_alloc {s} (c many) (hm : (c.multicast ∨ c.discovery ∨ c.ping) → many = true) : Evo s (alloc c many s) := by
  refine ⟨⟨.alloc s.next c.token c.ep :: if many then [.many s.next] else [], rfl, ?_⟩, Nat.le_succ _, ?_, ?_⟩
  · cases many <;> simp
  · intro x hx
    rcases List.mem_append.1 hx with hx | hx
    · exact .inr ⟨x, hx, rfl, id⟩
    · cases List.mem_singleton.1 hx; exact .inl (Nat.le_refl _)
  · intro f
    refine ⟨fun x hx hf => ?_, fun i hi => List.mem_append_left _ (f.2 i hi)⟩
    rcases List.mem_append.1 hx with hx | hx
    · rcases List.mem_append.1 hx with hx | hx
      · exact List.mem_append_left _ (f.1 x (List.mem_append_left _ hx) hf)
      · cases List.mem_singleton.1 hx
        rw [hm hf]
        exact List.mem_append_right _ (by simp)
    · exact List.mem_append_left _ (f.1 x (List.mem_append_right _ hx) hf)

theorem evo_upd {s : St} {i f} (hf : ∀ c : Cb, (f c).id = c.id ∧ (f c).multicast = c.multicast ∧ (f c).discovery = c.discovery ∧ (f c).ping = c.ping ∧ (f c).ref = c.ref) :
    Evo s { s with cbs := upd i f s.cbs } := by
  refine ⟨⟨[], by simp, by simp⟩, Nat.le_refl _, ?_, ?_⟩
  · intro x hx
    obtain ⟨y, hy, e, h⟩ := mem_upd (fun c => (hf c).1) hx
    refine .inr ⟨y, hy, e, fun r => ?_⟩
    rcases h with rfl | rfl
    · exact r
    · rw [(hf y).2.2.2.2] at r; exact r
  · intro fl
    refine ⟨fun x hx hg => ?_, fl.2⟩
    rcases List.mem_append.1 hx with hx | hx
    · obtain ⟨y, hy, e, h⟩ := mem_upd (fun c => (hf c).1) hx
      rw [← e]
      refine fl.1 y (List.mem_append_left _ hy) ?_
      rcases h with rfl | rfl
      · exact hg
      · rw [(hf y).2.1, (hf y).2.2.1, (hf y).2.2.2.1] at hg; exact hg
    · exact fl.1 x (List.mem_append_right _ hx) hg

theorem evo_updOut {s : St} {i f} (hf : ∀ c : Cb, (f c).id = c.id ∧ (f c).multicast = c.multicast ∧ (f c).discovery = c.discovery ∧ (f c).ping = c.ping ∧ (f c).ref = c.ref) :
    Evo s { s with out := upd i f s.out } := by
  refine ⟨⟨[], by simp, by simp⟩, Nat.le_refl _, fun x hx => .inr ⟨x, hx, rfl, id⟩, ?_⟩
  intro fl
  refine ⟨fun x hx hg => ?_, fl.2⟩
  rcases List.mem_append.1 hx with hx | hx
  · exact fl.1 x (List.mem_append_left _ hx) hg
  · obtain ⟨y, hy, e, h⟩ := mem_upd (fun c => (hf c).1) hx
    rw [← e]
    refine fl.1 y (List.mem_append_right _ hy) ?_
    rcases h with rfl | rfl
    · exact hg
    · rw [(hf y).2.1, (hf y).2.2.1, (hf y).2.2.2.1] at hg; exact hg

theorem sentCb_ping {id t con u tm s i} (h : (i, Kind.ping) ∈ (sentCb id t con u tm s).timers) : (i, Kind.ping) ∈ s.timers := by
  unfold sentCb clearTrans at h
  revert h
  cases con <;> cases u <;> cases tm <;> simp

theorem evo_sent (id t con u tm s) : Evo s (sentCb id t con u tm s) :=
  evo_frame (sentCb_same ..).1 (sentCb_same ..).2.1 (sentCb_same ..).2.2.1 (sentCb_same ..).2.2.2 (fun _ h => sentCb_ping h)

theorem evo_disp (s d) : Evo s { s with disp := d } := evo_frame rfl rfl rfl rfl (fun _ h => h)

theorem evo_new (m e b s) : Evo s (newTrans m e b s) := evo_frame rfl rfl rfl rfl (fun _ h => h)
theorem evo_clear (t s) : Evo s (clearTrans t s) := evo_frame rfl rfl rfl rfl (fun _ h => h)

theorem evo_doReq {c many con timed secured how s s'} (hm : (c.multicast ∨ c.discovery ∨ c.ping) → many = true)
    (h : doReq c many con timed secured how s = .ok s') : Evo s s' := by
  unfold doReq at h
  have h0 : Evo s (alloc c many s) := evo_alloc c many hm
  have h1 : Evo s (newTrans c.mid c.ep secured (alloc c many s)) := h0.trans (evo_new ..)
  cases how with
  | noMem => cases h; exact .refl _
  | noTrans => exact h0.trans (evo_free h)
  | notSent =>
    obtain ⟨s1, h2, h3⟩ := Out.bind_ok h
    cases h3
    exact ((h1.trans (evo_clear ..)).trans (evo_free h2)).trans (evo_disp _ _)
  | sent =>
    cases h
    exact (h1.trans (evo_sent ..)).trans (evo_disp _ _)

/-- Frames that user calls leave. -/
def onlyLoops (l : List Frame) : Prop := l.filter (!neutral ·) = []

theorem close_loops (ep s) : onlyLoops (close ep s).1 := by
  unfold close
  split <;> rfl

theorem evo_close (ep s) : Evo s (close ep s).2 := by
  unfold close
  split
  · exact evo_frame rfl rfl rfl rfl (fun _ h => h)
  · exact .refl _

theorem evo_initPost {q how s s1} (h1 : initPost q how s = .ok s1) : Evo s s1 := by
  unfold initPost at h1
  have h0 : Evo s (alloc (q.cb false none false false) false s) := evo_alloc _ _ (by simp [Req.cb])
  cases how with
  | noMem => cases h1; exact .refl _
  | noTrans => exact h0.trans (evo_free h1)
  | notSent => cases h1; exact h0.trans (evo_frame rfl rfl rfl rfl (fun _ h => h))
  | sent => cases h1; exact h0.trans (evo_frame rfl rfl rfl rfl (fun _ h => h))

theorem evo_doPost {con timed how s s1} (h1 : doPost con timed how s = .ok s1) : Evo s s1 := by
  unfold doPost at h1
  split at h1
  · split at h1
    · cases h1; exact .refl _
    · cases h1
  · split at h1
    · cases h1
    · split at h1
      · cases h1
        exact (evo_sent ..).trans (evo_disp _ _)
      · cases h1

theorem evo_act {cur a s r} (h : act cur a s = .ok r) : Evo s r.2 ∧ onlyLoops r.1 := by
  cases a with
  | req form q how =>
    obtain ⟨s1, h1, h2⟩ := Out.bind_ok h
    cases h2
    unfold req at h1
    refine ⟨?_, rfl⟩
    cases form
    · exact evo_doReq (by simp [Req.cb]) h1
    · exact evo_doReq (by simp [Req.cb]) h1
    · exact evo_doReq (by simp) h1
    · exact evo_doReq (by simp) h1
    · exact evo_doReq (by simp) h1
  | initPost q how =>
    obtain ⟨s1, h1, h2⟩ := Out.bind_ok h
    cases h2
    exact ⟨evo_initPost h1, rfl⟩
  | doPost con timed how =>
    obtain ⟨s1, h1, h2⟩ := Out.bind_ok h
    cases h2
    exact ⟨evo_doPost h1, rfl⟩
  | ping token ep ok =>
    obtain ⟨s1, h1, h2⟩ := Out.bind_ok h
    cases h2
    unfold ping at h1
    refine ⟨?_, rfl⟩
    have h0 : Evo s (alloc ⟨0, 0, token, ep, 0, false, true, none, false, false, false, false⟩ true s) := evo_alloc _ _ (by simp)
    split at h1
    · cases h1
      refine ⟨h0.log, h0.next, h0.cbs, fun f => ⟨(h0.fl f).1, fun i hi => ?_⟩⟩
      rcases List.mem_append.1 hi with hi | hi
      · exact (h0.fl f).2 i hi
      · cases List.mem_singleton.1 hi
        exact List.mem_append_right _ (by simp)
    · exact h0.trans (evo_free h1)
  | stopObserve uri ep mid con secured how =>
    obtain ⟨s1, h1, h2⟩ := Out.bind_ok h
    cases h2
    unfold stopObserve at h1
    refine ⟨?_, rfl⟩
    split at h1
    · cases h1; exact .refl _
    · rename_i c _
      have hu : Evo s { s with cbs := upd c.id (fun x => { x with mid := mid, obs := some 1 }) s.cbs } :=
        evo_upd (fun _ => ⟨rfl, rfl, rfl, rfl, rfl⟩)
      dsimp only at h1
      split at h1
      · cases h1; exact hu
      · cases h1; exact hu
      · obtain ⟨s2, h3, h4⟩ := Out.bind_ok h1
        cases h4
        exact (((hu.trans (evo_new ..)).trans (evo_clear ..)).trans (evo_free h3)).trans (evo_disp _ _)
      · cases h1
        exact ((hu.trans (evo_new ..)).trans (evo_sent ..)).trans (evo_disp _ _)
  | post q how =>
    obtain ⟨s1, h1, h2⟩ := Out.bind_ok h
    cases h2
    unfold post at h1
    refine ⟨?_, rfl⟩
    cases how with
    | noMem => exact evo_initPost h1
    | noTrans => exact evo_initPost h1
    | notSent => obtain ⟨s2, h3, h4⟩ := Out.bind_ok h1; exact (evo_initPost h3).trans (evo_doPost h4)
    | sent => obtain ⟨s2, h3, h4⟩ := Out.bind_ok h1; exact (evo_initPost h3).trans (evo_doPost h4)
  | stopMulticast =>
    obtain ⟨s1, h1, h2⟩ := Out.bind_ok h
    cases h2
    unfold stopMulticast at h1
    refine ⟨?_, rfl⟩
    split at h1
    · cases h1; exact .refl _
    · rename_i id
      split at h1
      · cases h1
        exact (evo_upd (s := s) (i := id) (f := fun x => { x with stop := true }) (fun _ => ⟨rfl, rfl, rfl, rfl, rfl⟩)).trans
          (evo_updOut (fun _ => ⟨rfl, rfl, rfl, rfl, rfl⟩))
      · cases h1
  | close ep =>
    cases h
    exact ⟨evo_close ep s, close_loops ep s⟩


/-- A handler frame is executed. -/
theorem Inv3.call {id code k s n i a} (h : Inv3 ⟨.handler id code :: k, s⟩) (hp : 0 < cnt id s.mem) :
    Inv3 ⟨.acts i a :: k, { s with calls := n, log := s.log ++ [.called id code] }⟩ := by
  have hs : ∀ j, sum j ⟨.acts i a :: k, { s with calls := n, log := s.log ++ [.called id code] }⟩ =
      sum j ⟨.handler id code :: k, s⟩ := by
    intro j
    unfold sum calls
    dsimp only
    rw [List.countP_append, List.countP_cons, List.countP_cons, List.countP_cons, List.countP_nil]
    simp only [isCall, isHandler]
    by_cases hj : id = j
    · subst hj; simp; omega
    · simp [hj]
  have hpl : ∀ j, Plain j (s.log ++ [.called id code]) → Plain j s.log := fun _ hp => hp.mono
  refine ⟨acc_closed.frame (acc_closed.call (id := id) (code := code) h.acc hp) rfl rfl rfl rfl, ?_, ?_, ?_, ?_, ?_⟩
  · exact ⟨fun x hx hf => List.mem_append_left _ (h.fl.1 x hx hf), fun i hi => List.mem_append_left _ (h.fl.2 i hi)⟩
  · intro i stop obs ep hm
    refine List.mem_append_left _ (h.disc i stop obs ep ?_)
    rcases List.mem_cons.1 hm with hm | hm
    · cases hm
    · exact List.mem_cons_of_mem _ hm
  · intro i hn; rw [hs]; exact h.fresh i hn
  · intro i hp; rw [hs]; exact h.once i (hpl i hp)
  · intro x hx hp
    rw [hs]
    have := h.idle x hx (hpl _ hp)
    refine ⟨this.1, fun h1 => ?_⟩
    obtain ⟨⟨pong, ep, hm⟩, h2⟩ := this.2 h1
    refine ⟨⟨pong, ep, ?_⟩, fun obs sep pong ep hm => h2 obs sep pong ep ?_⟩
    · rcases List.mem_cons.1 hm with hm | hm
      · cases hm
      · exact List.mem_cons_of_mem _ hm
    · rcases List.mem_cons.1 hm with hm | hm
      · cases hm
      · exact List.mem_cons_of_mem _ hm

theorem detach_mem {c : Cb} {s : St} {x} (h : x ∈ (detach c s).mem) : x = c ∨ x ∈ s.mem := by
  unfold detach St.mem at h
  rcases List.mem_append.1 h with h | h
  · exact .inr (List.mem_append_left _ (List.mem_filter.1 h).1)
  · rcases List.mem_cons.1 h with h | h
    · exact .inl h
    · exact .inr (List.mem_append_right _ h)

/-- A request without pending calls is taken out of the list and its handler called. -/
theorem Inv3.detach {c d code k s} (h : Inv3 ⟨k, s⟩) (hc : c ∈ s.cbs) (h1 : d.id = c.id) (h2 : d.token = c.token) (h3 : d.ep = c.ep)
    (h4 : d.multicast = c.multicast) (h5 : d.discovery = c.discovery) (h6 : d.ping = c.ping)
    (hz : Plain c.id s.log → sum c.id ⟨k, s⟩ = 0) :
    Inv3 ⟨.handler c.id code :: .afterNotify c.id :: k, detach d s⟩ := by
  have hs : ∀ j, sum j ⟨.handler c.id code :: .afterNotify c.id :: k, Client.detach d s⟩ =
      sum j ⟨k, s⟩ + if c.id = j then 1 else 0 := by
    intro j
    unfold sum
    show calls j s.log + _ = _
    dsimp only
    rw [List.countP_cons, List.countP_cons]
    simp only [isHandler, beq_iff_eq]
    by_cases hj : c.id = j <;> simp [hj] <;> omega
  refine ⟨acc_closed.detach h.acc hc h1 h2 h3, ?_, ?_, ?_, ?_, ?_⟩
  · refine ⟨fun x hx hf => ?_, fun i hi => h.fl.2 i (mem_dropTimers hi)⟩
    rcases detach_mem hx with rfl | hx
    · rw [h1]
      rw [h4, h5, h6] at hf
      exact h.fl.1 c (List.mem_append_left _ hc) hf
    · exact h.fl.1 x hx hf
  · intro i stop obs ep hm
    refine h.disc i stop obs ep ?_
    simpa using hm
  · intro i hn
    rw [hs]
    have hl : c.id < s.next := (h.acc.live (cnt_pos.2 ⟨c, List.mem_append_left _ hc, rfl⟩)).2.2
    have hn : s.next ≤ i := hn
    rw [if_neg (by omega)]
    exact h.fresh i hn
  · intro i hp
    rw [hs]
    by_cases hi : c.id = i
    · subst hi
      rw [if_pos rfl, hz hp]; omega
    · rw [if_neg hi]; exact h.once i hp
  · intro x hx hp
    have hx : x ∈ s.cbs.filter (fun x => x.id != d.id) := hx
    have hx := List.mem_filter.1 hx
    have hne : ¬ c.id = x.id := by
      have := hx.2
      simp at this
      rw [h1] at this
      exact fun e => this e.symm
    rw [hs, if_neg hne, Nat.add_zero]
    have := h.idle x hx.1 hp
    refine ⟨this.1, fun q => ?_⟩
    obtain ⟨⟨pong, ep, hm⟩, h2⟩ := this.2 q
    refine ⟨⟨pong, ep, by simp [hm]⟩, fun obs sep pong ep hm => h2 obs sep pong ep ?_⟩
    simpa using hm

theorem evo_dropPing (pong c s) : Evo s (dropPing pong c s) := by
  refine evo_frame (dropPing_same pong c s).1 (dropPing_same pong c s).2.1 (dropPing_same pong c s).2.2.1 (dropPing_same pong c s).2.2.2 ?_
  intro i h
  unfold dropPing at h
  split at h
  · exact List.mem_of_mem_erase h
  · exact h

/-- Removing the frame of a request that is not listed, has several answers or no calls. -/
theorem Inv3.pop {id obs sep pong ep k s} (h : Inv3 ⟨.afterInvoke id obs sep pong ep :: k, s⟩)
    (hz : ∀ x ∈ s.cbs, x.id = id → Plain id s.log → sum id ⟨k, s⟩ = 0) : Inv3 ⟨k, s⟩ := by
  have hs : ∀ j, sum j ⟨.afterInvoke id obs sep pong ep :: k, s⟩ = sum j ⟨k, s⟩ := by
    intro j; unfold sum; simp [isHandler]
  refine ⟨h.acc, h.fl, fun i stop obs ep hm => h.disc i stop obs ep (List.mem_cons_of_mem _ hm), fun i hn => ?_, fun i hp => ?_, fun x hx hp => ?_⟩
  · rw [← hs]; exact h.fresh i hn
  · rw [← hs]; exact h.once i hp
  · by_cases hi : x.id = id
    · have := hz x hx hi (hi ▸ hp)
      rw [hi, this]
      exact ⟨fun _ => rfl, fun q => by omega⟩
    · have := h.idle x hx hp
      rw [hs] at this
      refine ⟨this.1, fun q => ?_⟩
      obtain ⟨⟨pong', ep', hm⟩, h2⟩ := this.2 q
      refine ⟨⟨pong', ep', ?_⟩, fun obs sep pong ep hm => h2 obs sep pong ep (List.mem_cons_of_mem _ hm)⟩
      rcases List.mem_cons.1 hm with hm | hm
      · exact absurd (by injection hm) hi
      · exact hm

/-- The reference of a request without pending calls is given back. -/
theorem Inv3.unref {id k s} (h : Inv3 ⟨k, s⟩) (hz : ∀ x ∈ s.cbs, x.id = id → Plain id s.log → sum id ⟨k, s⟩ = 0) :
    Inv3 ⟨k, unref id s⟩ := by
  have hs : ∀ j, sum j ⟨k, Client.unref id s⟩ = sum j ⟨k, s⟩ := fun _ => rfl
  refine ⟨acc_closed.unref h.acc, ?_, h.disc, h.fresh, h.once, fun x hx hp => ?_⟩
  · refine ⟨fun x hx hf => ?_, h.fl.2⟩
    rcases List.mem_append.1 hx with hx | hx
    · obtain ⟨y, hy, e, hh⟩ := mem_upd (f := fun x => { x with ref := false }) (fun _ => rfl) hx
      show _ ∈ s.log
      rw [← e]
      refine h.fl.1 y (List.mem_append_left _ hy) ?_
      rcases hh with rfl | rfl <;> exact hf
    · exact h.fl.1 x (List.mem_append_right _ hx) hf
  · obtain ⟨y, hy, e⟩ := List.mem_map.1 hx
    rw [hs]
    split at e
    · rename_i hi
      subst e
      have := hz y hy hi (hi ▸ hp)
      show (_ → sum y.id _ = 0) ∧ (sum y.id _ = 1 → _)
      rw [hi, this]
      exact ⟨fun _ => rfl, fun q => by omega⟩
    · subst e
      exact h.idle y hy hp

theorem evo_setObserve {c obs ep s s'} (h : setObserve c obs ep s = .ok s') : Evo s s' := by
  have hu : Evo s { s with cbs := upd c.id (fun x => { x with obs := obs }) s.cbs } :=
    evo_upd (fun _ => ⟨rfl, rfl, rfl, rfl, rfl⟩)
  unfold setObserve at h
  dsimp only at h
  split at h
  · split at h
    · cases h; exact hu
    · exact hu.trans (evo_free h)
  · cases h; exact hu

theorem Inv3.afterInvoke {id obs sep pong ep k s r} (h : Inv3 ⟨.afterInvoke id obs sep pong ep :: k, s⟩)
    (hr : afterInvoke id obs sep pong ep s = .ok r) : Inv3 ⟨r.1 ++ k, r.2⟩ := by
  unfold Client.afterInvoke at hr
  split at hr
  · rename_i hl
    split at hr
    · cases hr
      have hn : ∀ x ∈ s.cbs, x.id ≠ id := by
        intro x hx e
        unfold St.look at hl
        rw [List.find?_eq_none] at hl
        exact hl x (List.mem_append_left _ hx) (by simp [e])
      have e : Evo s { s with timers := s.timers.erase (id, .ping) } :=
        evo_frame rfl rfl rfl rfl (fun _ h => List.mem_of_mem_erase h)
      have h1 := e.inv (acc_closed.frame h.acc rfl rfl rfl rfl) h
      exact h1.pop (fun x hx hi => absurd hi (hn x hx))
    · cases hr
  · rename_i c hl
    obtain ⟨hcm, hci⟩ := look_some hl
    have h1 : Inv3 ⟨.afterInvoke id obs sep pong ep :: k, Client.dropPing pong c s⟩ :=
      (evo_dropPing pong c s).inv (acc_closed.dropPing h.acc) h
    have hmany : ∀ q : c.multicast ∨ c.discovery ∨ c.ping, ¬ Plain id s.log := by
      intro q hp
      have := h.fl.1 c hcm q
      rw [hci] at this
      exact hp.1 this
    have hlog : (Client.dropPing pong c s).log = s.log := (dropPing_same pong c s).2.2.2
    generalize Client.dropPing pong c s = s1 at *
    dsimp only at hr
    split at hr
    · rename_i hall
      cases hr
      refine h1.pop (fun x hx hi => ?_)
      have := List.all_eq_true.1 hall x hx
      simp [hi] at this
    · split at hr
      · rename_i hcond
        split at hr
        · rename_i hmc
          have hz : ¬ Plain id s1.log := by rw [hlog]; exact hmany (.inl hmc)
          have h2 : Inv3 ⟨k, Client.unref id s1⟩ :=
            (h1.pop (fun _ _ _ hp => absurd hp hz)).unref (fun _ _ _ hp => absurd hp hz)
          split at hr
          · cases hr
            exact h2.core rfl
          · cases hr
            exact h2
        · obtain ⟨s2, h2, h3⟩ := Out.bind_ok hr
          cases h3
          have h4 := (evo_free h2).inv (acc_closed.free h1.acc h2) h1
          refine h4.pop (fun x hx hi => ?_)
          obtain ⟨_, rfl⟩ := freeCb_ok h2
          have := (List.mem_filter.1 hx).2
          simp [hi] at this
      · rename_i hcond
        obtain ⟨s2, h2, h3⟩ := Out.bind_ok hr
        cases h3
        have hz : ∀ x ∈ s1.cbs, x.id = id → Plain id s1.log → sum id ⟨k, s1⟩ = 0 := by
          intro x hx hi hp
          have hsum : sum id ⟨.afterInvoke id obs sep pong ep :: k, s1⟩ = sum id ⟨k, s1⟩ := by
            unfold sum; simp [isHandler]
          have ho := h1.once id hp
          rw [hsum] at ho
          by_cases hone : sum id ⟨k, s1⟩ = 1
          · exfalso
            have := (h1.idle x hx (hi ▸ hp)).2 (by rw [hi, hsum]; exact hone)
            obtain ⟨ha, hb⟩ := this.2 obs sep pong ep (by rw [hi]; exact List.mem_cons_self)
            refine hcond ⟨ha, by simp [hb], ?_⟩
            intro hd
            exact hmany (.inr (.inl hd)) (hlog ▸ hp)
          · omega
        have h4 := (h1.pop hz).unref hz
        exact (evo_setObserve h2).inv (acc_closed.setObserve h4.acc h2) h4

theorem evo_afterNotify {id s r} (h : afterNotify id s = .ok r) : Evo s r.2 ∧ r.1 = [] := by
  unfold afterNotify at h
  split at h
  · cases h
  · rename_i c hc
    cases h
    refine ⟨?_, rfl⟩
    refine (evo_dropPing false c s).trans ⟨⟨[.freed id], ?_, by simp⟩, Nat.le_refl _, ?_, ?_⟩
    · show s.log ++ _ = _
      rw [(dropPing_same false c s).2.2.2]
    · intro x hx
      exact .inr ⟨x, hx, rfl, fun q => q⟩
    · intro f
      have hl : (dropPing false c s).log = s.log := (dropPing_same false c s).2.2.2
      have ho : (dropPing false c s).out = s.out := (dropPing_same false c s).2.1
      refine ⟨fun x hx hf => ?_, fun i hi => ?_⟩
      · refine List.mem_append_left _ ?_
        rw [← hl]
        refine f.1 x ?_ hf
        rcases List.mem_append.1 hx with hx | hx
        · exact List.mem_append_left _ hx
        · refine List.mem_append_right _ ?_
          rw [ho]; exact (List.mem_filter.1 hx).1
      · refine List.mem_append_left _ ?_
        rw [← hl]
        exact f.2 i hi

theorem Inv3.next {beh c c'} (h : Inv3 c) (hn : next beh c = .ok c') : Inv3 c' := by
  obtain ⟨k, s⟩ := c
  unfold Client.next at hn
  split at hn
  · cases hn; exact h
  · rename_i e
    cases e; cases hn
    exact h.core rfl
  · rename_i cur a l k' e
    cases e
    obtain ⟨r, h1, h2⟩ := Out.bind_ok hn
    cases h2
    have e := evo_act h1
    refine (e.1.inv (acc_closed.act h.acc h1) h).core ?_
    rw [List.filter_append, e.2]; rfl
  · rename_i id code k' e
    cases e
    split at hn
    · rename_i hm
      cases hn
      exact h.call (any_pos.1 hm)
    · cases hn
  · rename_i id k' e
    cases e
    obtain ⟨r, h1, h2⟩ := Out.bind_ok hn
    cases h2
    have e := evo_afterNotify h1
    refine (e.1.inv (acc_closed.afterNotify h.acc h1) h).core ?_
    rw [e.2]; rfl
  · rename_i id stop obs ep k' e
    cases e
    have hm := h.disc id stop obs ep List.mem_cons_self
    have hz : ¬ Plain id s.log := fun p => p.1 hm
    have hpop : ∀ fr, isHandler id fr = false → (∀ j, isHandler j fr = false) → (∀ j o p q, fr ≠ .afterDiscovery j o p q) →
        (∀ j o p q w, fr = .afterInvoke j o p q w → j = id) → Inv3 ⟨fr :: k', s⟩ := by
      intro fr _ hf hd hi
      have hs : ∀ j, sum j ⟨fr :: k', s⟩ = sum j ⟨.afterDiscovery id stop obs ep :: k', s⟩ := by
        intro j; unfold sum; dsimp only; rw [List.countP_cons, List.countP_cons, hf j]; rfl
      refine ⟨h.acc, h.fl, ?_, fun i hn => by rw [hs]; exact h.fresh i hn, fun i hp => by rw [hs]; exact h.once i hp, ?_⟩
      · intro i st ob epp hm
        rcases List.mem_cons.1 hm with hm | hm
        · exact absurd hm.symm (hd _ _ _ _)
        · exact h.disc i st ob epp (List.mem_cons_of_mem _ hm)
      · intro x hx hp
        rw [hs]
        have hne : x.id ≠ id := fun e => hz (e ▸ hp)
        have := h.idle x hx hp
        refine ⟨this.1, fun q => ?_⟩
        obtain ⟨⟨pong', ep', hm⟩, h2⟩ := this.2 q
        refine ⟨⟨pong', ep', ?_⟩, fun obs' sep' pong'' ep'' hm => h2 obs' sep' pong'' ep'' ?_⟩
        · rcases List.mem_cons.1 hm with hm | hm
          · cases hm
          · exact List.mem_cons_of_mem _ hm
        · rcases List.mem_cons.1 hm with hm | hm
          · exact absurd (hi _ _ _ _ _ hm.symm) hne
          · exact List.mem_cons_of_mem _ hm
    have hinv : Inv3 ⟨.afterInvoke id obs false false ep :: k', s⟩ :=
      hpop _ rfl (fun _ => rfl) (fun _ _ _ _ e => by cases e) (fun j o p q w e => by cases e; rfl)
    split at hn
    · split at hn
      · cases hn
      · cases hn; exact hinv
    · rename_i d hd
      split at hn
      · cases hn
        have : Inv3 ⟨.loop (.mid d.mid) .cancelled :: k', s⟩ :=
          hpop _ rfl (fun _ => rfl) (fun _ _ _ _ e => by cases e) (fun j o p q w e => by cases e)
        exact this.unref (fun _ _ _ p => absurd p hz)
      · cases hn; exact hinv
  · rename_i id obs sep pong ep k' e
    cases e
    obtain ⟨r, h1, h2⟩ := Out.bind_ok hn
    cases h2
    exact h.afterInvoke h1
  · rename_i id k' e
    cases e
    obtain ⟨r, h1, h2⟩ := Out.bind_ok hn
    cases h2
    exact ((evo_free h1).inv (acc_closed.free h.acc h1) h).core rfl
  · rename_i p code k' e
    cases e
    split at hn
    · cases hn; exact h.core rfl
    · rename_i d hd
      cases hn
      have hm : d ∈ s.cbs := List.mem_of_find?_eq_some hd
      have hr : d.ref = false := by
        have := List.find?_some hd
        cases p <;> simp [Pick.hit] at this <;> exact this.1.2
      exact h.detach hm rfl rfl rfl rfl rfl rfl (fun hp => (h.idle d hm hp).1 hr)
  · rename_i e
    cases e; cases hn; exact h.core rfl
  · rename_i e
    cases e
    split at hn
    · cases hn
    · split at hn
      · cases hn; exact h.core rfl
      · cases hn; exact h.core rfl
  · rename_i e
    cases e
    split at hn
    · cases hn; exact h.core rfl
    · split at hn
      · cases hn
      · cases hn
        exact ((evo_clear _ s).inv (acc_closed.frame h.acc rfl rfl rfl rfl) h).core rfl
  · rename_i e
    cases e
    split at hn
    · cases hn
    · cases hn; exact h.core rfl
  · rename_i e
    cases e
    split at hn
    · cases hn
    · rename_i x _
      split at hn
      · cases hn
        refine ((evo_close x.ep s).inv ?_ h).core ?_
        · exact acc_closed.act (cur := none) (a := .close x.ep) h.acc rfl
        · rw [List.filter_append, close_loops]; rfl
      · cases hn
        exact ((evo_clear _ s).inv (acc_closed.frame h.acc rfl rfl rfl rfl) h).core rfl
  · rename_i e
    cases e; cases hn; exact h.core rfl
  · rename_i e
    cases e
    split at hn
    · cases hn
    · split at hn
      · cases hn; exact h.core rfl
      · cases hn; exact h.core rfl
  · rename_i e
    cases e
    split at hn
    · cases hn; exact h.core rfl
    · cases hn; exact h.core rfl

/-- Between operations no listed plain request has been called. -/
theorem Inv3.zero {s x} (h : Inv3 ⟨[], s⟩) (hx : x ∈ s.cbs) (hp : Plain x.id s.log) : sum x.id ⟨[], s⟩ = 0 := by
  have ho := h.once x.id hp
  by_cases h1 : sum x.id ⟨[], s⟩ = 1
  · obtain ⟨⟨_, _, hm⟩, _⟩ := (h.idle x hx hp).2 h1
    cases hm
  · omega

theorem respond_stack (d ep obs body pong old stop s) :
    (respond d ep obs body pong old stop s).stack = [] ∨
    (∃ sep, (respond d ep obs body pong old stop s).stack = [.afterInvoke d.id obs sep pong ep]) ∨
    (d.discovery = true ∧ (respond d ep obs body pong old stop s).stack = [.afterDiscovery d.id false obs ep]) ∨
    (d.discovery = true ∧ (respond d ep obs body pong old stop s).stack =
      [.handler d.id (.response d.token ep), .afterDiscovery d.id stop obs ep]) ∨
    (d.discovery = false ∧ (respond d ep obs body pong old stop s).stack =
      [.handler d.id (.response d.token ep), .afterInvoke d.id obs false pong ep]) := by
  unfold respond
  dsimp only
  split
  · exact .inl rfl
  · cases body <;> dsimp only
    · split
      · rename_i h; exact .inr (.inr (.inr (.inl ⟨h, rfl⟩)))
      · rename_i h; exact .inr (.inr (.inr (.inr ⟨by simpa using h, rfl⟩)))
    · split
      · rename_i h; exact .inr (.inr (.inl ⟨h, rfl⟩))
      · exact .inr (.inl ⟨_, rfl⟩)
    · split
      · exact .inr (.inl ⟨_, rfl⟩)
      · rename_i h; exact .inr (.inr (.inr (.inr ⟨by simpa using h, rfl⟩)))
    · exact .inr (.inl ⟨_, rfl⟩)

/-- The beginning of the processing of a response. -/
theorem Inv3.respond {d ep obs body pong old stop s} (h : Inv3 ⟨[], s⟩) (hd : d ∈ s.cbs) :
    Inv3 (respond d ep obs body pong old stop s) := by
  have hst := respond_st d ep obs body pong old stop s
  have hacc : Acc (Client.respond d ep obs body pong old stop s).st := by
    rw [hst]
    have hu : Acc { s with cbs := upd d.id (fun x => { x with ref := true }) s.cbs } :=
      acc_closed.upd h.acc (fun _ => ⟨rfl, rfl, rfl⟩)
    by_cases ho : obs = none
    · rw [if_pos ho]; exact acc_closed.frame hu rfl rfl rfl (List.append_nil _)
    · rw [if_neg ho]; exact acc_closed.observed (id := d.id) hu
  have hext : ∀ id code, Ev.called id code ∉ (if obs = none then [] else [Ev.observed d.id]) := by
    intro id code; split <;> simp
  have hlog : (Client.respond d ep obs body pong old stop s).st.log = s.log ++ (if obs = none then [] else [.observed d.id]) := by rw [hst]
  have hpl : ∀ id, Plain id (Client.respond d ep obs body pong old stop s).st.log → Plain id s.log := by
    intro id hp; rw [hlog] at hp; exact hp.mono
  have hobs : Plain d.id (Client.respond d ep obs body pong old stop s).st.log → obs = none := by
    intro hp
    by_cases ho : obs = none
    · exact ho
    · exfalso
      rw [hlog, if_neg ho] at hp
      exact hp.2 (by simp)
  have hstk := respond_stack d ep obs body pong old stop s
  have hfr : ∀ f ∈ (Client.respond d ep obs body pong old stop s).stack,
      (∀ j c, f = .handler j c → j = d.id) ∧ (∀ j o p q w, f = .afterInvoke j o p q w → j = d.id ∧ o = obs) ∧
      (∀ j o p q, f = .afterDiscovery j o p q → j = d.id ∧ d.discovery = true) := by
    clear hst hacc hext hlog hpl hobs
    rcases hstk with e | ⟨sep, e⟩ | ⟨hd, e⟩ | ⟨hd, e⟩ | ⟨hd, e⟩ <;> rw [e] <;> grind
  have hsum : ∀ j, sum j (Client.respond d ep obs body pong old stop s) =
      sum j ⟨[], s⟩ + (Client.respond d ep obs body pong old stop s).stack.countP (isHandler j) := by
    intro j
    unfold sum
    rw [hlog, calls_ext hext]
    rfl
  have hcnt : ∀ j, (Client.respond d ep obs body pong old stop s).stack.countP (isHandler j) ≤ if d.id = j then 1 else 0 := by
    intro j
    rcases hstk with e | ⟨sep, e⟩ | ⟨hd, e⟩ | ⟨hd, e⟩ | ⟨hd, e⟩ <;> rw [e] <;> simp [List.countP_cons, isHandler]
  have hdone : (Client.respond d ep obs body pong old stop s).stack.countP (isHandler d.id) = 1 → d.discovery = false →
      (∃ pg ep', .afterInvoke d.id obs false pg ep' ∈ (Client.respond d ep obs body pong old stop s).stack) ∧
      ∀ o p q w, .afterInvoke d.id o p q w ∈ (Client.respond d ep obs body pong old stop s).stack → p = false := by
    rcases hstk with e | ⟨sep, e⟩ | ⟨hd, e⟩ | ⟨hd, e⟩ | ⟨hd, e⟩ <;> rw [e] <;> simp [isHandler, hd] <;> grind
  have hds : d.id < s.next := (h.acc.live (cnt_pos.2 ⟨d, List.mem_append_left _ hd, rfl⟩)).2.2
  refine ⟨hacc, ?_, ?_, ?_, ?_, ?_⟩
  · rw [hst]
    refine ⟨fun x hx hf => ?_, fun i hi => List.mem_append_left _ (h.fl.2 i hi)⟩
    refine List.mem_append_left _ ?_
    rcases List.mem_append.1 hx with hx | hx
    · obtain ⟨y, hy, e, hh⟩ := mem_upd (f := fun x => { x with ref := true }) (fun _ => rfl) hx
      rw [← e]
      refine h.fl.1 y (List.mem_append_left _ hy) ?_
      rcases hh with rfl | rfl <;> exact hf
    · exact h.fl.1 x (List.mem_append_right _ hx) hf
  · intro id st o e hm
    obtain ⟨e1, e2⟩ := (hfr _ hm).2.2 _ _ _ _ rfl
    rw [hlog, e1]
    exact List.mem_append_left _ (h.fl.1 d (List.mem_append_left _ hd) (.inr (.inl e2)))
  · intro i hn
    rw [hst] at hn
    have hn : s.next ≤ i := hn
    have := hcnt i
    rw [if_neg (by omega)] at this
    have h2 := h.fresh i hn
    rw [hsum]; omega
  · intro i hp
    rw [hsum]
    have := hcnt i
    by_cases hi : d.id = i
    · subst hi
      rw [if_pos rfl] at this
      rw [h.zero hd (hpl _ hp)]; omega
    · rw [if_neg hi] at this
      have := h.once i (hpl _ hp)
      omega
  · intro x hx hp
    rw [hst] at hx
    obtain ⟨y, hy, e⟩ := List.mem_map.1 hx
    have hid : x.id = y.id := by split at e <;> subst e <;> rfl
    have h0 := h.zero hy (hid ▸ hpl _ hp)
    have hc := hcnt y.id
    rw [hsum, hid, h0]
    by_cases hi : y.id = d.id
    · rw [if_pos hi] at e
      subst e
      refine ⟨fun q => by simp at q, fun q => ?_⟩
      have hp' : Plain d.id (Client.respond d ep obs body pong old stop s).st.log := by
        rw [← hi]; exact hp
      have ho := hobs hp'
      have hdf : d.discovery = false := by
        by_cases hdd : d.discovery = true
        · exact absurd (h.fl.1 d (List.mem_append_left _ hd) (.inr (.inl hdd))) (hpl _ hp').1
        · simpa using hdd
      rw [hi] at q ⊢
      have := hdone (by omega) hdf
      refine ⟨?_, fun o p q w hm => ⟨?_, this.2 o p q w hm⟩⟩
      · obtain ⟨pg, e, hm⟩ := this.1
        rw [ho] at hm ⊢
        exact ⟨pg, e, hm⟩
      · have := ((hfr _ hm).2.1 _ _ _ _ _ rfl).2
        rw [this]; exact ho
    · rw [if_neg (fun e => hi e.symm)] at hc
      exact ⟨fun _ => by omega, fun q => by omega⟩

theorem evo_clearMid (mid s) : Evo s (clearMid mid s) := by
  unfold clearMid
  split
  · exact .refl _
  · exact evo_clear ..

theorem Inv3.start {o s c} (h : Inv3 ⟨[], s⟩) (hs : start o s = .ok c) : Inv3 c := by
  unfold Client.start at hs
  split at hs
  · obtain ⟨r, h1, h2⟩ := Out.bind_ok hs
    cases h2
    have e := evo_act h1
    exact (e.1.inv (acc_closed.act h.acc h1) h).core (by rw [e.2]; rfl)
  · split at hs
    · rename_i mid _ _ _ _ _ _ _ _ _
      cases hs
      exact (evo_clearMid mid s).inv (acc_closed.clearMid h.acc) h
    · rename_i mid _ _ _ _ _ _ _ _ d hd
      cases hs
      refine ((evo_clearMid mid s).inv (acc_closed.clearMid h.acc) h).respond ?_
      rw [(clearMid_same mid s).1]
      exact List.mem_of_find?_eq_some hd
  · split at hs
    · split at hs
      · cases hs
      · rename_i id kind htm _ d hd
        have hf := find_cnt hd
        have e : Evo s { s with timers := s.timers.erase (id, kind) } :=
          evo_frame rfl rfl rfl rfl (fun _ h => List.mem_of_mem_erase h)
        have h1 := e.inv (acc_closed.frame h.acc rfl rfl rfl rfl) h
        unfold Client.fire at hs
        cases kind with
        | remove =>
          obtain ⟨r, h2, h3⟩ := Out.bind_ok hs
          cases h3
          exact (evo_free h2).inv (acc_closed.free h1.acc h2) h1
        | timeout =>
          cases hs
          exact h1.detach hf.1 rfl rfl rfl rfl rfl rfl (fun hp => h1.zero hf.1 hp)
        | ping =>
          cases hs
          have hm := h.fl.2 id htm
          have hz : ¬ Plain d.id s.log := fun p => p.1 (hf.2.1 ▸ hm)
          have hsum : ∀ j, j ≠ d.id → sum j ⟨[.handler d.id .pingTimeout, .afterPing d.id], { s with timers := s.timers.erase (id, .ping) }⟩ =
              sum j ⟨[], { s with timers := s.timers.erase (id, .ping) }⟩ := by
            intro j hj
            unfold sum
            simp [isHandler, List.countP_cons]
            exact fun e => hj e.symm
          refine ⟨h1.acc, h1.fl, fun _ _ _ _ hm => by simp at hm, fun i hn => ?_, fun i hp => ?_, fun x hx hp => ?_⟩
          · have hl : d.id < s.next := (h.acc.live (cnt_pos.2 ⟨d, List.mem_append_left _ hf.1, rfl⟩)).2.2
            have hn : s.next ≤ i := hn
            rw [hsum i (by omega)]; exact h1.fresh i hn
          · rw [hsum i (fun e => hz (e ▸ hp))]; exact h1.once i hp
          · rw [hsum _ (fun e => hz (e ▸ hp))]
            have := h1.zero hx hp
            exact ⟨fun _ => this, fun q => by omega⟩
    · cases hs; exact h
  · cases hs; exact h.core rfl
  · cases hs
    refine Evo.inv (s := s) (evo_frame rfl rfl rfl rfl (fun _ h => h)) (acc_closed.frame h.acc rfl rfl rfl rfl) h

theorem inv3_init : Inv3 ⟨[], init⟩ :=
  ⟨acc_init, ⟨fun _ h => (by cases h), fun _ h => (by cases h)⟩, fun _ _ _ _ h => (by cases h), fun _ _ => rfl,
    fun _ _ => Nat.zero_le 1, fun _ h => (by cases h)⟩

theorem inv3_reach {beh c} (h : Reach beh c) : Inv3 c := by
  induction h with
  | init => exact inv3_init
  | op _ hs ih => exact ih.start hs
  | step _ hn ih => exact ih.next hn

end Verif.Client
