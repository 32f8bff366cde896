import Verif.Client.Model
/-! Lemmas about the client request machine. -/
namespace Verif.Client
open Verif

theorem Out.bind_ok {α β : Type} {x : Out α} {f : α → Out β} {y : β} (h : x.bind f = .ok y) :
    ∃ a, x = .ok a ∧ f a = .ok y := by
  cases x with
  | ok a => exact ⟨a, rfl, h⟩
  | ub => cases h

/-- How often an allocation occurs. -/
def cnt (j : Nat) (l : List Cb) : Nat := l.countP (fun c => c.id == j)

theorem cnt_nil (j) : cnt j [] = 0 := rfl
theorem cnt_cons (j c l) : cnt j (c :: l) = cnt j l + if c.id = j then 1 else 0 := by
  unfold cnt; rw [List.countP_cons]; simp
theorem cnt_append (j l m) : cnt j (l ++ m) = cnt j l + cnt j m := List.countP_append
theorem cnt_upd (j i f l) (hf : ∀ c : Cb, (f c).id = c.id) : cnt j (upd i f l) = cnt j l := by
  induction l with
  | nil => rfl
  | cons c l ih =>
    have : upd i f (c :: l) = (if c.id = i then f c else c) :: upd i f l := rfl
    rw [this, cnt_cons, cnt_cons, ih]
    have : (if c.id = i then f c else c).id = c.id := by
      by_cases h : c.id = i
      · rw [if_pos h]; exact hf c
      · rw [if_neg h]
    rw [this]
theorem cnt_filter (j i l) : cnt j (l.filter (fun x : Cb => x.id != i)) = if j = i then 0 else cnt j l := by
  induction l with
  | nil => simp [cnt_nil]
  | cons c l ih =>
    rw [List.filter_cons]
    by_cases h : c.id = i
    · have : (c.id != i) = false := by simp [h]
      rw [this, if_neg (by simp), ih, cnt_cons]
      by_cases hj : j = i
      · simp [hj]
      · rw [if_neg hj, if_neg hj, if_neg (by omega)]; omega
    · have : (c.id != i) = true := by simp [h]
      rw [this, if_pos rfl, cnt_cons, cnt_cons, ih]
      by_cases hj : j = i
      · rw [if_pos hj, if_pos hj, if_neg (by omega)]
      · rw [if_neg hj, if_neg hj]
theorem cnt_pos {j l} : 0 < cnt j l ↔ ∃ c ∈ l, c.id = j := by
  unfold cnt; rw [List.countP_pos_iff]; simp
theorem cnt_zero {j l} : cnt j l = 0 ↔ ∀ c ∈ l, c.id ≠ j := by
  unfold cnt; rw [List.countP_eq_zero]; simp
theorem any_pos {j : Nat} {l : List Cb} : l.any (fun c => c.id == j) = true ↔ 0 < cnt j l := by
  rw [cnt_pos]; simp
theorem look_some {s : St} {id c} (h : s.look id = some c) : c ∈ s.mem ∧ c.id = id := by
  unfold St.look at h
  exact ⟨List.mem_of_find?_eq_some h, by have := List.find?_some h; simpa using this⟩

/-- A property of states that every elementary change preserves. -/
structure Closed (P : St → Prop) : Prop where
  frame : ∀ {s s'}, P s → s'.cbs = s.cbs → s'.out = s.out → s'.next = s.next → s'.log = s.log → P s'
  upd : ∀ {s} {id f}, P s → (∀ c, (f c).id = c.id ∧ (f c).token = c.token ∧ (f c).ep = c.ep) →
    P { s with cbs := upd id f s.cbs }
  updOut : ∀ {s} {id f}, P s → (∀ c, (f c).id = c.id ∧ (f c).token = c.token ∧ (f c).ep = c.ep) →
    P { s with out := Client.upd id f s.out }
  detach : ∀ {s c c'}, P s → c ∈ s.cbs → c'.id = c.id → c'.token = c.token → c'.ep = c.ep → P (detach c' s)
  free : ∀ {s id s'}, P s → freeCb id s = .ok s' → P s'
  drop : ∀ {s id}, P s → 0 < cnt id s.out →
    P { s with out := s.out.filter (fun x => x.id != id), log := s.log ++ [.freed id] }
  alloc : ∀ {s c many}, P s → P (alloc c many s)
  call : ∀ {s id code}, P s → 0 < cnt id s.mem → P { s with log := s.log ++ [.called id code] }
  observed : ∀ {s id}, P s → P { s with log := s.log ++ [.observed id] }

theorem sentCb_same (id t con u tm s) :
    (sentCb id t con u tm s).cbs = s.cbs ∧ (sentCb id t con u tm s).out = s.out ∧
    (sentCb id t con u tm s).next = s.next ∧ (sentCb id t con u tm s).log = s.log := by
  unfold sentCb clearTrans
  cases con <;> exact ⟨rfl, rfl, rfl, rfl⟩

theorem Closed.doReq {P} (C : Closed P) {c many con timed secured how s s'} (hp : P s)
    (h : doReq c many con timed secured how s = .ok s') : P s' := by
  unfold Client.doReq at h
  cases how with
  | noMem => cases h; exact hp
  | noTrans => exact C.free (C.alloc hp) h
  | notSent =>
    obtain ⟨s1, h1, h2⟩ := Out.bind_ok h
    cases h2
    have hx : P (clearTrans s.nextT (newTrans c.mid c.ep secured (Client.alloc c many s))) :=
      C.frame (C.alloc (c := c) (many := many) hp) rfl rfl rfl rfl
    exact C.frame (C.free hx h1) rfl rfl rfl rfl
  | sent =>
    cases h
    have e := sentCb_same s.next s.nextT con (c.obs == none) timed (newTrans c.mid c.ep secured (Client.alloc c many s))
    exact C.frame (C.alloc (c := c) (many := many) hp) e.1 e.2.1 e.2.2.1 e.2.2.2

theorem Closed.initPost {P} (C : Closed P) {q how s s1} (hp : P s) (h1 : initPost q how s = .ok s1) : P s1 := by
  unfold Client.initPost at h1
  cases how with
  | noMem => cases h1; exact hp
  | noTrans => exact C.free (C.alloc hp) h1
  | notSent => cases h1; exact C.frame (C.alloc hp) rfl rfl rfl rfl
  | sent => cases h1; exact C.frame (C.alloc hp) rfl rfl rfl rfl

theorem Closed.doPost {P} (C : Closed P) {con timed how s s1} (hp : P s) (h1 : doPost con timed how s = .ok s1) : P s1 := by
  unfold Client.doPost at h1
  split at h1
  · split at h1
    · cases h1; exact hp
    · cases h1
  · split at h1
    · cases h1
    · split at h1
      · cases h1
        rename_i id t _ _ _
        have e := sentCb_same id t con true timed s
        exact C.frame hp e.1 e.2.1 e.2.2.1 e.2.2.2
      · cases h1

theorem Closed.act {P} (C : Closed P) {cur a s r} (hp : P s) (h : act cur a s = .ok r) : P r.2 := by
  cases a with
  | req form q how =>
    obtain ⟨s1, h1, h2⟩ := Out.bind_ok h
    cases h2
    unfold Client.req at h1
    cases form <;> exact C.doReq hp h1
  | initPost q how =>
    obtain ⟨s1, h1, h2⟩ := Out.bind_ok h
    cases h2
    exact C.initPost hp h1
  | doPost con timed how =>
    obtain ⟨s1, h1, h2⟩ := Out.bind_ok h
    cases h2
    exact C.doPost hp h1
  | ping token ep ok =>
    obtain ⟨s1, h1, h2⟩ := Out.bind_ok h
    cases h2
    unfold Client.ping at h1
    split at h1
    · cases h1; exact C.frame (C.alloc hp) rfl rfl rfl rfl
    · exact C.free (C.alloc hp) h1
  | stopObserve uri ep mid con secured how =>
    obtain ⟨s1, h1, h2⟩ := Out.bind_ok h
    cases h2
    unfold Client.stopObserve at h1
    split at h1
    · cases h1; exact hp
    · rename_i c _
      have hu : P { s with cbs := Client.upd c.id (fun x => { x with mid := mid, obs := some 1 }) s.cbs } :=
        C.upd hp (fun _ => ⟨rfl, rfl, rfl⟩)
      dsimp only at h1
      split at h1
      · cases h1; exact hu
      · cases h1; exact hu
      · obtain ⟨s2, h3, h4⟩ := Out.bind_ok h1
        cases h4
        refine C.frame (s := s2) (C.free ?_ h3) rfl rfl rfl rfl
        exact C.frame hu rfl rfl rfl rfl
      · cases h1
        refine C.frame hu ?_ ?_ ?_ ?_
        · exact (sentCb_same c.id s.nextT con false false _).1
        · exact (sentCb_same c.id s.nextT con false false _).2.1
        · exact (sentCb_same c.id s.nextT con false false _).2.2.1
        · exact (sentCb_same c.id s.nextT con false false _).2.2.2
  | post q how =>
    obtain ⟨s1, h1, h2⟩ := Out.bind_ok h
    cases h2
    unfold Client.post at h1
    cases how with
    | noMem => exact C.initPost hp h1
    | noTrans => exact C.initPost hp h1
    | notSent => obtain ⟨s2, h3, h4⟩ := Out.bind_ok h1; exact C.doPost (C.initPost hp h3) h4
    | sent => obtain ⟨s2, h3, h4⟩ := Out.bind_ok h1; exact C.doPost (C.initPost hp h3) h4
  | stopMulticast =>
    obtain ⟨s1, h1, h2⟩ := Out.bind_ok h
    cases h2
    unfold Client.stopMulticast at h1
    split at h1
    · cases h1; exact hp
    · rename_i id
      split at h1
      · cases h1
        exact C.updOut (s := { s with cbs := Client.upd id (fun x => { x with stop := true }) s.cbs })
          (C.upd hp (fun _ => ⟨rfl, rfl, rfl⟩)) (fun _ => ⟨rfl, rfl, rfl⟩)
      · cases h1
  | close ep =>
    cases h
    unfold Client.close
    split
    · exact C.frame hp rfl rfl rfl rfl
    · exact hp

theorem Closed.dropPing {P} (C : Closed P) {pong c s} (hp : P s) : P (dropPing pong c s) := by
  unfold Client.dropPing
  split
  · exact C.frame hp rfl rfl rfl rfl
  · exact hp

theorem Closed.unref {P} (C : Closed P) {id s} (hp : P s) : P (unref id s) :=
  C.upd hp (fun _ => ⟨rfl, rfl, rfl⟩)

theorem Closed.setObserve {P} (C : Closed P) {c obs ep s s'} (hp : P s) (h : setObserve c obs ep s = .ok s') : P s' := by
  have hu : P { s with cbs := Client.upd c.id (fun x => { x with obs := obs }) s.cbs } :=
    C.upd hp (fun _ => ⟨rfl, rfl, rfl⟩)
  unfold Client.setObserve at h
  dsimp only at h
  split at h
  · split at h
    · cases h; exact hu
    · exact C.free hu h
  · cases h; exact hu

theorem Closed.afterInvoke {P} (C : Closed P) {id obs sep pong ep s r} (hp : P s)
    (h : afterInvoke id obs sep pong ep s = .ok r) : P r.2 := by
  unfold Client.afterInvoke at h
  split at h
  · split at h
    · cases h; exact C.frame hp rfl rfl rfl rfl
    · cases h
  · rename_i c _
    have hd : P (Client.dropPing pong c s) := C.dropPing hp
    dsimp only at h
    split at h
    · cases h; exact hd
    · split at h
      · split at h
        · split at h
          · cases h; exact C.unref hd
          · cases h; exact C.unref hd
        · obtain ⟨s1, h1, h2⟩ := Out.bind_ok h
          cases h2; exact C.free hd h1
      · obtain ⟨s1, h1, h2⟩ := Out.bind_ok h
        cases h2; exact C.setObserve (C.unref hd) h1

theorem find_cnt {j : Nat} {l : List Cb} {c} (h : l.find? (fun c => c.id == j) = some c) : c ∈ l ∧ c.id = j ∧ 0 < cnt j l := by
  have h1 := List.mem_of_find?_eq_some h
  have h2 := List.find?_some h
  have h2 : c.id = j := by simpa using h2
  exact ⟨h1, h2, cnt_pos.2 ⟨c, h1, h2⟩⟩

theorem dropPing_same (pong c s) : (dropPing pong c s).cbs = s.cbs ∧ (dropPing pong c s).out = s.out ∧
    (dropPing pong c s).next = s.next ∧ (dropPing pong c s).log = s.log := by
  unfold dropPing
  split <;> exact ⟨rfl, rfl, rfl, rfl⟩

theorem Closed.afterNotify {P} (C : Closed P) {id s r} (hp : P s) (h : afterNotify id s = .ok r) : P r.2 := by
  unfold Client.afterNotify at h
  split at h
  · cases h
  · rename_i c hc
    cases h
    refine C.frame (C.drop hp (find_cnt hc).2.2) ?_ rfl ?_ rfl
    · exact (dropPing_same false c s).1
    · exact (dropPing_same false c s).2.2.1

theorem Closed.next {P} (C : Closed P) {beh c c'} (hp : P c.st) (h : next beh c = .ok c') : P c'.st := by
  unfold Client.next at h
  split at h
  · cases h; exact hp
  · cases h; exact hp
  · obtain ⟨r, h1, h2⟩ := Out.bind_ok h
    cases h2; exact C.act hp h1
  · split at h
    · rename_i id code k _ hm
      cases h
      exact C.frame (C.call (id := id) (code := code) hp (any_pos.1 hm)) rfl rfl rfl rfl
    · cases h
  · obtain ⟨r, h1, h2⟩ := Out.bind_ok h
    cases h2; exact C.afterNotify hp h1
  · split at h
    · split at h
      · cases h
      · cases h; exact hp
    · split at h
      · cases h; exact C.unref hp
      · cases h; exact hp
  · obtain ⟨r, h1, h2⟩ := Out.bind_ok h
    cases h2; exact C.afterInvoke hp h1
  · obtain ⟨r, h1, h2⟩ := Out.bind_ok h
    cases h2; exact C.free hp h1
  · split at h
    · cases h; exact hp
    · rename_i d hd
      cases h
      exact C.detach (c := d) hp (List.mem_of_find?_eq_some hd) rfl rfl rfl
  · cases h; exact hp
  · split at h
    · cases h
    · split at h
      · cases h; exact hp
      · cases h; exact hp
  · split at h
    · cases h; exact hp
    · split at h
      · cases h
      · cases h; exact C.frame hp rfl rfl rfl rfl
  · split at h
    · cases h
    · cases h; exact hp
  · split at h
    · cases h
    · split at h
      · cases h
        unfold Client.close
        split
        · exact C.frame hp rfl rfl rfl rfl
        · exact hp
      · cases h; exact C.frame hp rfl rfl rfl rfl
  · cases h; exact hp
  · split at h
    · cases h
    · split at h
      · cases h; exact hp
      · cases h; exact hp
  · split at h
    · cases h; exact hp
    · cases h; exact hp

theorem respond_st (c ep obs body pong old stop s) :
    (respond c ep obs body pong old stop s).st =
      { s with
        cbs := upd c.id (fun x => { x with ref := true }) s.cbs,
        log := s.log ++ (if obs = none then [] else [.observed c.id]) } := by
  unfold respond
  dsimp only
  split
  · rfl
  · cases body <;> dsimp only
    · split <;> rfl
    · split <;> rfl
    · split <;> rfl

theorem Closed.clearMid {P} (C : Closed P) {mid s} (hp : P s) : P (clearMid mid s) := by
  unfold Client.clearMid
  split
  · exact hp
  · exact C.frame hp rfl rfl rfl rfl

theorem clearMid_same (mid s) : (clearMid mid s).cbs = s.cbs ∧ (clearMid mid s).out = s.out ∧
    (clearMid mid s).timers = s.timers ∧ (clearMid mid s).next = s.next ∧ (clearMid mid s).log = s.log := by
  unfold clearMid
  split <;> exact ⟨rfl, rfl, rfl, rfl, rfl⟩

theorem Closed.start {P} (C : Closed P) {o s c} (hp : P s) (h : start o s = .ok c) : P c.st := by
  unfold Client.start at h
  split at h
  · obtain ⟨r, h1, h2⟩ := Out.bind_ok h
    cases h2; exact C.act hp h1
  · split at h
    · cases h; exact C.clearMid hp
    · rename_i mid _ _ obs _ _ _ _ _ d _
      cases h
      rw [respond_st]
      have hq := C.clearMid (mid := mid) hp
      generalize Client.clearMid mid s = s at hq
      have hu : P { s with cbs := Client.upd d.id (fun x => { x with ref := true }) s.cbs } :=
        C.upd hq (fun _ => ⟨rfl, rfl, rfl⟩)
      by_cases ho : obs = none
      · rw [if_pos ho]
        exact C.frame hu rfl rfl rfl (List.append_nil _)
      · rw [if_neg ho]
        exact C.observed (id := d.id) hu
  · split at h
    · split at h
      · cases h
      · rename_i id kind _ _ d hd
        have hf := find_cnt hd
        have ht : P { s with timers := s.timers.erase (id, kind) } := C.frame hp rfl rfl rfl rfl
        unfold Client.fire at h
        cases kind with
        | remove =>
          obtain ⟨r, h1, h2⟩ := Out.bind_ok h
          cases h2; exact C.free ht h1
        | timeout => cases h; exact C.detach (c := d) ht hf.1 rfl rfl rfl
        | ping => cases h; exact ht
    · cases h; exact hp
  · cases h; exact hp
  · cases h; exact C.frame hp rfl rfl rfl rfl

/-- A property that holds at the start and is preserved holds in every reachable state. -/
theorem Closed.reach {P} (C : Closed P) (h0 : P init) {beh c} (h : Reach beh c) : P c.st := by
  induction h with
  | init => exact h0
  | op _ hs ih => exact C.start ih hs
  | step _ hn ih => exact C.next ih hn

/-! ### Allocation and release -/

/-- Every allocation up to now is either released once or still there once. -/
def Acc (s : St) : Prop := ∀ id, s.log.count (.freed id) + cnt id s.mem = if id < s.next then 1 else 0

theorem freeCb_ok {id s s'} (h : freeCb id s = .ok s') :
    0 < cnt id s.mem ∧ s' = { s with
      cbs := s.cbs.filter (fun x => x.id != id), out := s.out.filter (fun x => x.id != id),
      timers := dropTimers id s.timers, log := s.log ++ [.freed id] } := by
  unfold freeCb at h
  split at h
  · rename_i hm
    cases h
    exact ⟨any_pos.1 hm, rfl⟩
  · cases h

theorem count_snoc_freed (l : List Ev) (id j) :
    (l ++ [Ev.freed id]).count (.freed j) = l.count (.freed j) + if id = j then 1 else 0 := by
  rw [List.count_append, List.count_cons, List.count_nil]
  by_cases h : id = j
  · simp [h]
  · have : ¬ (Ev.freed id = Ev.freed j) := fun e => h (Ev.freed.inj e)
    simp [h]

theorem acc_closed : Closed Acc where
  frame := by
    intro s s' h h1 h2 h3 h4 id
    have := h id
    unfold St.mem at *
    rw [h1, h2, h3, h4]; exact this
  upd := by
    intro s i f h hf id
    have := h id
    unfold St.mem at *
    rw [cnt_append] at *
    dsimp only
    rw [cnt_upd _ _ _ _ (fun c => (hf c).1)]; exact this
  updOut := by
    intro s i f h hf id
    have := h id
    unfold St.mem at *
    rw [cnt_append] at *
    dsimp only
    rw [cnt_upd _ _ _ _ (fun c => (hf c).1)]; exact this
  detach := by
    intro s c c' h hc h1 _ _ id
    have a := h id
    have b := h c.id
    have hp : 0 < cnt c.id s.cbs := cnt_pos.2 ⟨c, hc, rfl⟩
    unfold St.mem Client.detach at *
    dsimp only at *
    rw [cnt_append] at *
    rw [cnt_filter, cnt_cons, h1]
    by_cases hi : id = c.id
    · subst hi; simp only [if_true] at *; split at b <;> omega
    · rw [if_neg hi, if_neg (fun e => hi e.symm)]; omega
  free := by
    intro s i s' h hf id
    obtain ⟨hp, rfl⟩ := freeCb_ok hf
    have a := h id
    have b := h i
    unfold St.mem at *
    dsimp only at *
    rw [cnt_append] at *
    rw [cnt_filter, cnt_filter, count_snoc_freed]
    by_cases hi : id = i
    · subst hi; simp only [if_true] at *; split at b <;> omega
    · rw [if_neg hi, if_neg hi, if_neg (fun e => hi e.symm)]; omega
  drop := by
    intro s i h hp id
    have a := h id
    have b := h i
    unfold St.mem at *
    dsimp only at *
    rw [cnt_append] at *
    rw [cnt_filter, count_snoc_freed]
    by_cases hi : id = i
    · subst hi; simp only [if_true] at *; split at b <;> omega
    · rw [if_neg hi, if_neg (fun e => hi e.symm)]; omega
  alloc := by
    intro s c many h id
    have a := h id
    unfold St.mem Client.alloc at *
    dsimp only at *
    rw [cnt_append, cnt_append, cnt_cons, cnt_nil, List.count_append]
    rw [cnt_append] at a
    have e : (Ev.alloc s.next c.token c.ep :: if many then [Ev.many s.next] else []).count (.freed id) = 0 := by
      cases many <;> simp [List.count_cons]
    rw [e]
    dsimp only
    by_cases h1 : s.next = id
    · subst h1; rw [if_pos rfl, if_pos (by omega)]; rw [if_neg (by omega)] at a; omega
    · rw [if_neg h1]
      by_cases h2 : id < s.next
      · rw [if_pos (by omega)]; rw [if_pos h2] at a; omega
      · rw [if_neg (by omega)]; rw [if_neg h2] at a; omega
  call := by
    intro s i code h _ id
    have := h id
    have e : (s.log ++ [Ev.called i code]).count (.freed id) = s.log.count (.freed id) := by
      rw [List.count_append]; simp
    show (s.log ++ [Ev.called i code]).count (.freed id) + cnt id s.mem = _
    rw [e]; exact this
  observed := by
    intro s i h id
    have := h id
    have e : (s.log ++ [Ev.observed i]).count (.freed id) = s.log.count (.freed id) := by
      rw [List.count_append]; simp
    show (s.log ++ [Ev.observed i]).count (.freed id) + cnt id s.mem = _
    rw [e]; exact this

theorem acc_init : Acc init := by
  intro id
  show List.count _ [] + cnt id ([] ++ []) = _
  rw [if_neg (by show ¬ id < 0; omega)]; rfl

theorem acc_reach {beh c} (h : Reach beh c) : Acc c.st := acc_closed.reach acc_init h

theorem Acc.live {s : St} (h : Acc s) {id} (hp : 0 < cnt id s.mem) :
    cnt id s.mem = 1 ∧ .freed id ∉ s.log ∧ id < s.next := by
  have := h id
  split at this
  · refine ⟨by omega, ?_, by assumption⟩
    intro hm
    have := List.count_pos_iff.2 hm
    omega
  · omega

/-- No handler is called after its request was released. -/
def Quiet (l : List Ev) : Prop := ∀ id code l1 l2, l = l1 ++ Ev.freed id :: l2 → .called id code ∉ l2

theorem quiet_append {l m} (h : Quiet l) (hm : ∀ id code, .called id code ∈ m → .freed id ∉ l) (hone : m.length ≤ 1) : Quiet (l ++ m) := by
  intro id code l1 l2 e hc
  match m, hone with
  | [], _ => rw [List.append_nil] at e; exact h id code l1 l2 e hc
  | [x], _ =>
    rcases List.eq_nil_or_concat l2 with e2 | ⟨l3, y, e2⟩
    · subst e2; cases hc
    · subst e2
      have e' : l ++ [x] = (l1 ++ Ev.freed id :: l3) ++ [y] := by
        rw [e]; simp
      obtain ⟨ea, eb⟩ := List.append_inj' e' rfl
      cases eb
      rw [List.concat_eq_append, List.mem_append] at hc
      rcases hc with hc | hc
      · exact h id code l1 l3 ea hc
      · cases List.mem_singleton.1 hc
        exact hm id code (List.mem_singleton.2 rfl) (by rw [ea]; simp)

theorem quiet_append2 {l} (h : Quiet l) {x y} (hx : ∀ id code, x ≠ Ev.called id code) (hy : ∀ id code, y ≠ Ev.called id code) :
    Quiet (l ++ [x, y]) := by
  have h1 : Quiet (l ++ [x]) := quiet_append h (by intro id code hm; exact absurd (List.mem_singleton.1 hm).symm (hx id code)) (by simp)
  have h2 : Quiet ((l ++ [x]) ++ [y]) := quiet_append h1 (by intro id code hm; exact absurd (List.mem_singleton.1 hm).symm (hy id code)) (by simp)
  simpa using h2

theorem quiet_closed : Closed (fun s => Acc s ∧ Quiet s.log) where
  frame := fun h h1 h2 h3 h4 => ⟨acc_closed.frame h.1 h1 h2 h3 h4, by rw [h4]; exact h.2⟩
  upd := fun h hf => ⟨acc_closed.upd h.1 hf, h.2⟩
  updOut := fun h hf => ⟨acc_closed.updOut h.1 hf, h.2⟩
  detach := fun h hc h1 h2 h3 => ⟨acc_closed.detach h.1 hc h1 h2 h3, h.2⟩
  free := by
    intro s id s' h hf
    refine ⟨acc_closed.free h.1 hf, ?_⟩
    obtain ⟨_, rfl⟩ := freeCb_ok hf
    exact quiet_append h.2 (by intro id code hm; cases List.mem_singleton.1 hm) (by simp)
  drop := by
    intro s id h hp
    exact ⟨acc_closed.drop h.1 hp, quiet_append h.2 (by intro id code hm; cases List.mem_singleton.1 hm) (by simp)⟩
  alloc := by
    intro s c many h
    refine ⟨acc_closed.alloc h.1, ?_⟩
    unfold Client.alloc
    cases many
    · exact quiet_append h.2 (by intro id code hm; cases List.mem_singleton.1 hm) (by simp)
    · exact quiet_append2 h.2 (by intro _ _ e; cases e) (by intro _ _ e; cases e)
  call := by
    intro s id code h hp
    refine ⟨acc_closed.call h.1 hp, quiet_append h.2 ?_ (by simp)⟩
    intro i cd hm
    cases List.mem_singleton.1 hm
    exact (h.1.live hp).2.1
  observed := by
    intro s id h
    exact ⟨acc_closed.observed h.1, quiet_append h.2 (by intro id code hm; cases List.mem_singleton.1 hm) (by simp)⟩

theorem quiet_reach {beh c} (h : Reach beh c) : Quiet c.st.log :=
  (quiet_closed.reach ⟨acc_init, fun _ _ l1 l2 e => by cases l1 <;> cases e⟩ h).2

end Verif.Client
