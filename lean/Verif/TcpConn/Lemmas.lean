import Verif.TcpConn.Inv

/-! Every call keeps the invariant and is defined. -/

namespace Verif.TcpConn

open Spec

theorem bind_ok {α β : Type} (a : α) (f : α → Out β) : (Out.ok a).bind f = f a := rfl

theorem views (log es : List Ev) (n : Nat) : view (log ++ es) n = es.foldl (see n) (view log n) := by
  unfold view; rw [List.foldl_append]

/-- The sessions but one. -/
def restS (w : World) (n : Nat) : List Sess := (w.sess ++ w.free).filter fun x => x.n != n

/-- The waiting sessions but one. -/
def restW (w : World) (n : Nat) : List Wait := (w.waiting ++ w.freeW).filter fun x => x.n != n

/-- The invariant of a state. -/
structure Ok (M : Nat) (w : World) : Prop where
  inv : Inv M (w.sess ++ w.free) (w.waiting ++ w.freeW) w.rfds w.cfds w.socks w.next w.log
  max : w.maxCount ≤ M
  low : ∀ fd ∈ w.socks, 0 < fd ∧ fd < 1024

variable {M : Nat}

theorem filter_names {α : Type} (f : α → Nat) : ∀ (l : List α) (s : α), (l.map f).Nodup → s ∈ l →
    l.Perm (s :: l.filter fun x => f x != f s) := by
  intro l s
  induction l with
  | nil => intro _ h; cases h
  | cons a l ih =>
    intro hn hs
    rw [List.map_cons, List.nodup_cons] at hn
    by_cases e : f a = f s
    · have hn1 : f s ∉ l.map f := e ▸ hn.1
      have ha : a = s := by
        rcases List.mem_cons.1 hs with h | h
        · exact h.symm
        · exact absurd (List.mem_map_of_mem h) hn1
      subst ha
      rw [List.filter_cons_of_neg (by simp), List.filter_eq_self.2]
      intro x hx
      simpa using fun e' : f x = f a => hn.1 (e' ▸ List.mem_map_of_mem hx)
    · rw [List.filter_cons_of_pos (by simpa using e)]
      have hs' : s ∈ l := by
        rcases List.mem_cons.1 hs with h | h
        · exact absurd (congrArg f h).symm e
        · exact h
      exact ((ih hn.2 hs').cons a).trans (List.Perm.swap _ _ _)

theorem map_names : ∀ (l : List Wait) (x y : Wait), (l.map (·.n)).Nodup → x ∈ l → y.n = x.n →
    (l.map fun z => if z.n == y.n then y else z).Perm (y :: l.filter fun z => z.n != x.n) := by
  intro l x y
  induction l with
  | nil => intro _ h; cases h
  | cons a l ih =>
    intro hn hs hy
    rw [List.map_cons, List.nodup_cons] at hn
    by_cases e : a.n = x.n
    · rw [List.map_cons, if_pos (by simp [e, hy]), List.filter_cons_of_neg (by simp [e])]
      have hne : ∀ z ∈ l, z.n ≠ x.n := fun z hz e' => hn.1 (e ▸ e' ▸ List.mem_map_of_mem hz)
      rw [List.filter_eq_self.2 fun z hz => by simpa using hne z hz]
      rw [show (l.map fun z => if z.n == y.n then y else z) = l from ?_]
      conv => rhs; rw [← List.map_id l]
      exact List.map_congr_left fun z hz => by rw [if_neg (by simpa [hy] using hne z hz)]; rfl
    · have hs' : x ∈ l := by
        rcases List.mem_cons.1 hs with h | h
        · exact absurd (congrArg Wait.n h).symm e
        · exact h
      rw [List.map_cons, if_neg (by simpa [hy] using e), List.filter_cons_of_pos (by simpa using e)]
      exact ((ih hn.2 hs' hy).cons a).trans (List.Perm.swap _ _ _)

theorem Ok.split_sess {w : World} (h : Ok M w) {s : Sess} (hs : s ∈ w.sess ++ w.free) :
    Inv M (s :: restS w s.n) (w.waiting ++ w.freeW) w.rfds w.cfds w.socks w.next w.log :=
  h.inv.perm (filter_names (fun y : Sess => y.n) _ s (List.nodup_append.1 h.inv.nodup).1 hs) (List.Perm.refl _)

theorem Ok.split_wait {w : World} (h : Ok M w) {x : Wait} (hx : x ∈ w.waiting ++ w.freeW) :
    Inv M (w.sess ++ w.free) (x :: restW w x.n) w.rfds w.cfds w.socks w.next w.log :=
  h.inv.perm (List.Perm.refl _) (filter_names (fun y : Wait => y.n) _ x (List.nodup_append.1 h.inv.nodup).2.1 hx)

theorem close_ok {w : World} {fd : Nat} (h : fd ∈ w.socks) :
    close w fd = .ok { w with socks := w.socks.filter fun x => x != fd } := by
  unfold close; rw [if_pos (by simpa using h)]

theorem fdSet_ok (s : List Nat) (fd : Nat) (h : fd < 1024) : ∃ r, fdSet s fd = .ok r ∧ ∀ z, z ∈ r ↔ z = fd ∨ z ∈ s := by
  unfold fdSet
  rw [if_pos (show fd < fdSetSize from h)]
  refine ⟨_, rfl, fun z => ?_⟩
  split
  · rename_i hc
    exact ⟨.inr, fun hz => hz.elim (fun e => e ▸ (by simpa using hc)) id⟩
  · simp [or_comm]

/-! ### Closing a session -/

theorem freeSess_ok {w : World} (h : Ok M w) (q : Bool) {s : Sess} (hs : s ∈ w.sess ++ w.free) :
    ∃ w', freeSess q w s = .ok w' ∧ Ok M w' ∧ (w'.sess = w.sess.filter fun x => x.n != s.n) ∧
      (w'.free = w.free.filter fun x => x.n != s.n) ∧ w'.waiting = w.waiting ∧ w'.freeW = w.freeW ∧ w'.maxCount = w.maxCount ∧ w'.timeout = w.timeout := by
  obtain ⟨⟨cb, h1, h2, h3, h4, h5, h6⟩, _⟩ := h.inv.sess s hs
  have ht := h.inv.tries s.n
  have hsp := h.split_sess hs
  unfold freeSess
  dsimp only
  by_cases e : (!q && s.notify) = true
  · rw [if_pos e]
    obtain ⟨hm, hi⟩ := hsp.close_sess [.ended s.n] (by simp [About]) (by
        rw [views]; simp only [List.foldl_cons, List.foldl_nil, see, if_true]
        exact ⟨cb, h1, h2, by show (view w.log s.n).began ≤ 1; rw [h3]; split <;> omega, by simp [h4], h5, h6⟩) (by
        rw [views]; simp only [List.foldl_cons, List.foldl_nil, see, if_true]; exact ht)
    refine ⟨_, close_ok hm, ⟨?_, h.max, fun fd hf => h.low fd (List.mem_filter.1 hf).1⟩, rfl, rfl, rfl, rfl, rfl, rfl⟩
    rw [restS, List.filter_append] at hi
    exact hi
  · rw [if_neg e]
    obtain ⟨hm, hi⟩ := hsp.close_sess [] (by simp) (by
        rw [views]
        exact ⟨cb, h1, h2, by show (view w.log s.n).began ≤ 1; rw [h3]; split <;> omega, by simp [h4], h5, h6⟩) (by
        rw [views]; exact ht)
    refine ⟨_, close_ok hm, ⟨?_, h.max, fun fd hf => h.low fd (List.mem_filter.1 hf).1⟩, rfl, rfl, rfl, rfl, rfl, rfl⟩
    rw [restS, List.filter_append, List.append_nil] at hi
    exact hi

/-! ### Giving up a waiting session -/

/-- The events of giving up. -/
def unrefLog (n : Nat) (ms : List Bytes) : List Ev := ms.map (Ev.unref n)

theorem unrefs_eq (n : Nat) : ∀ (ms : List Bytes) (w : World), unrefs w n ms = { w with log := w.log ++ unrefLog n ms } := by
  intro ms
  induction ms with
  | nil => intro w; simp [unrefs, unrefLog]
  | cons m r ih => intro w; rw [unrefs, ih]; simp [World.emit, unrefLog]

theorem view_unrefs (n : Nat) : ∀ (ms : List Bytes) (v : View),
    (unrefLog n ms).foldl (see n) v = { v with unrefs := v.unrefs ++ ms } := by
  intro ms
  induction ms with
  | nil => intro v; simp [unrefLog]
  | cons m r ih => intro v; simp only [unrefLog, List.map_cons, List.foldl_cons, see, if_true] at ih ⊢; rw [ih]; simp

/-- The event of telling. -/
def tellLog (n : Nat) (cb : Option Nat) (t : Told) : List Ev := cb.toList.map fun f => .told n f t

theorem tell_eq (w : World) (n : Nat) (cb : Option Nat) (t : Told) : tell w n cb t = { w with log := w.log ++ tellLog n cb t } := by
  cases cb <;> simp [tell, tellLog, World.emit]

theorem view_tell (n : Nat) (cb : Option Nat) (t : Told) (v : View) :
    (tellLog n cb t).foldl (see n) v = { v with told := v.told ++ cb.toList.map fun f => (f, t) } := by
  cases cb <;> simp [tellLog, see]

/-- `freeWait`, for a waiting session that was taken out of the lists and may have been changed. -/
theorem freeWait_ok' {w : World} {x : Wait} (hi : Inv M (w.sess ++ w.free) (x :: restW w x.n) w.rfds w.cfds w.socks w.next w.log)
    (hmax : w.maxCount ≤ M) (hlow : ∀ fd ∈ w.socks, 0 < fd ∧ fd < 1024) (t : Told) (ht : t ≠ .connected) (es : List Ev)
    (hes : ∀ e ∈ es, About x.n e) (htr : es.foldl (see x.n) (view w.log x.n) = { view w.log x.n with tries := (view w.log x.n).tries + es.length })
    (hM : (view w.log x.n).tries + es.length ≤ M + 1) :
    ∃ w', freeWait { w with log := w.log ++ es } x t = .ok w' ∧ Ok M w' ∧ (w'.waiting = w.waiting.filter fun y => y.n != x.n) ∧
      (w'.freeW = w.freeW.filter fun y => y.n != x.n) ∧ w'.sess = w.sess ∧ w'.free = w.free ∧ w'.maxCount = w.maxCount ∧ w'.timeout = w.timeout := by
  obtain ⟨⟨h1, h2, h3, h4, h5, h6, h7, h8⟩, _⟩ := hi.wait x (by simp)
  unfold freeWait
  dsimp only
  rw [unrefs_eq]
  have key : ∀ (c k : List Nat), Inv M (w.sess ++ w.free) ({ x with sock := none } :: restW w x.n) w.rfds c k w.next w.log →
      Inv M (w.sess ++ w.free) ((w.waiting.filter fun y => y.n != x.n) ++ (w.freeW.filter fun y => y.n != x.n)) w.rfds c k w.next
        (w.log ++ es ++ unrefLog x.n x.msgs ++ tellLog x.n x.cb t) := by
    intro c k hi
    have := hi.drop_wait rfl (es ++ unrefLog x.n x.msgs ++ tellLog x.n x.cb t) (by
      intro e he
      simp only [List.mem_append, unrefLog, tellLog, List.mem_map] at he
      rcases he with (he | ⟨m, _, rfl⟩) | ⟨m, _, rfl⟩
      · exact hes e he
      · rfl
      · rfl) (by
      rw [views, List.foldl_append, List.foldl_append, htr, view_unrefs, view_tell]
      refine ⟨x.cb, t, h1, ht, ?_, h3, h4, h6, ?_⟩
      · show _ ++ _ = _; rw [show _ = _ from h2]; rfl
      · show _ = _ ++ _; rw [show _ = _ from h8]; exact h7) (by
      rw [views, List.foldl_append, List.foldl_append, htr, view_unrefs, view_tell]; exact hM)
    rw [restW, List.filter_append] at this
    simpa only [List.append_assoc] using this
  cases hx : x.sock with
  | none =>
    simp only [dropSock, bind_ok, tell_eq]
    refine ⟨_, rfl, ⟨key _ _ ?_, hmax, hlow⟩, rfl, rfl, rfl, rfl, rfl, rfl⟩
    have : ({ x with sock := none } : Wait) = x := by cases x; simp_all
    rw [this]; exact hi
  | some fd =>
    obtain ⟨hm, hi'⟩ := hi.drop_sock hx
    simp only [dropSock]
    rw [close_ok (by exact hm), bind_ok, tell_eq]
    exact ⟨_, rfl, ⟨key _ _ hi', hmax, fun fd hf => hlow fd (List.mem_filter.1 hf).1⟩, rfl, rfl, rfl, rfl, rfl, rfl⟩

theorem freeWait_ok {w : World} (h : Ok M w) {x : Wait} (hx : x ∈ w.waiting ++ w.freeW) (t : Told) (ht : t ≠ .connected) :
    ∃ w', freeWait w x t = .ok w' ∧ Ok M w' ∧ (w'.waiting = w.waiting.filter fun y => y.n != x.n) ∧
      (w'.freeW = w.freeW.filter fun y => y.n != x.n) ∧ w'.sess = w.sess ∧ w'.free = w.free ∧ w'.maxCount = w.maxCount ∧ w'.timeout = w.timeout := by
  have := freeWait_ok' (h.split_wait hx) h.max h.low t ht [] (by simp) (by simp) (by have := h.inv.tries x.n; simpa using this)
  simpa using this

/-! ### Opening -/

/-- The events of sending what was queued. -/
def sendLog (n : Nat) : List Bytes → List (List (Option Nat)) → List Ev
  | [], _ => []
  | m :: r, os => .wrote n (sendLoop m (os.headD [])).1 (sendLoop m (os.headD [])).2 :: .unref n m :: sendLog n r os.tail

theorem sendAll_eq (n : Nat) : ∀ (ms : List Bytes) (os : List (List (Option Nat))) (w : World),
    sendAll w n ms os = { w with log := w.log ++ sendLog n ms os } := by
  intro ms
  induction ms with
  | nil => intro os w; simp [sendAll, sendLog]
  | cons m r ih => intro os w; rw [sendAll, ih]; simp [World.emit, sendLog, write]

theorem sendLog_about (n : Nat) : ∀ (ms : List Bytes) (os : List (List (Option Nat))), ∀ e ∈ sendLog n ms os, About n e := by
  intro ms
  induction ms with
  | nil => intro os e he; cases he
  | cons m r ih =>
    intro os e he
    simp only [sendLog, List.mem_cons] at he
    rcases he with rfl | rfl | he
    · rfl
    · rfl
    · exact ih _ e he

/-- The writes of sending what was queued. -/
def sendWrites : List Bytes → List (List (Option Nat)) → List (Bytes × Bool)
  | [], _ => []
  | m :: r, os => sendLoop m (os.headD []) :: sendWrites r os.tail

theorem sendWrites_streamed : ∀ (ms : List Bytes) (os : List (List (Option Nat))), Streamed ms (sendWrites ms os) := by
  intro ms
  induction ms with
  | nil => intro os; trivial
  | cons m r ih => intro os; exact ⟨(sendLoop_spec _ m).1, (sendLoop_spec _ m).2, ih _⟩

theorem view_sendLog (n : Nat) : ∀ (ms : List Bytes) (os : List (List (Option Nat))) (v : View),
    (sendLog n ms os).foldl (see n) v = { v with wrote := v.wrote ++ sendWrites ms os, unrefs := v.unrefs ++ ms } := by
  intro ms
  induction ms with
  | nil => intro os v; simp [sendLog, sendWrites]
  | cons m r ih =>
    intro os v
    simp only [sendLog, sendWrites, List.foldl_cons, see, if_true]
    rw [ih]; simp

theorem idOf_has (w : World) (ep : Ep) (h : ep.sid ≠ 0) : idOf w ep = (ep, w) := by
  unfold idOf; rw [if_neg h]

/-- The event of a new session. -/
def beganLog (n : Nat) (secured : Bool) : List Ev := if secured then [] else [.began n]

theorem view_began (n : Nat) (b : Bool) (v : View) :
    (beganLog n b).foldl (see n) v = { v with began := v.began + if b then 0 else 1 } := by
  cases b <;> simp [beganLog, see]

theorem addSess_ok (w : World) (n : Nat) (ep : Ep) (fd : Nat) (bl : Bool) (hf : fd < 1024) :
    ∃ r, addSess w n ep fd bl = .ok { (idOf w ep).2 with
        sess := (idOf w ep).2.sess ++ [⟨n, (idOf w ep).1, fd, true, bl⟩],
        log := w.log ++ beganLog n ep.secured, rfds := r } ∧ ∀ z, z ∈ r ↔ z = fd ∨ z ∈ w.rfds := by
  obtain ⟨r, h1, h2⟩ := fdSet_ok w.rfds fd hf
  refine ⟨r, ?_, h2⟩
  have hl : (idOf w ep).2.log = w.log := by unfold idOf; split <;> rfl
  have hr : (idOf w ep).2.rfds = w.rfds := by unfold idOf; split <;> rfl
  unfold addSess
  dsimp only
  cases e : ep.secured with
  | true => simp only [if_true, hr, h1, bind_ok, beganLog, List.append_nil, ← hl]
  | false => simp only [World.emit, hr, h1, bind_ok, beganLog, ← hl, Bool.false_eq_true, if_false]

theorem idOf_sid (w : World) (ep : Ep) : (idOf w ep).1.sid ≠ 0 := by
  unfold idOf
  split
  · simp only [newId]; split <;> omega
  · assumption

theorem idOf_secured (w : World) (ep : Ep) : (idOf w ep).1.secured = ep.secured := by unfold idOf; split <;> rfl

/-- `promote`, for a waiting session `x` with socket `fd` that was taken out of the lists. `cs` is
the set of the sockets of waiting sessions. -/
theorem promote_ok {w : World} {x : Wait} {fd : Nat} {cs : List Nat} (hw : ∃ y ∈ w.waiting, y.n = x.n)
    (hi : Inv M (w.sess ++ w.free) (x :: restW w x.n) w.rfds cs w.socks w.next w.log)
    (hcs : ∀ z, z ≠ fd → (z ∈ cs ↔ z ∈ w.cfds)) (hx : x.sock = some fd)
    (hmax : w.maxCount ≤ M) (hlow : ∀ fd ∈ w.socks, 0 < fd ∧ fd < 1024) (bl : Bool) (os : List (List (Option Nat))) (es : List Ev)
    (hnw : (w.waiting ++ w.freeW).map (·.n) |>.Nodup)
    (hes : ∀ e ∈ es, About x.n e) (htr : es.foldl (see x.n) (view w.log x.n) = { view w.log x.n with tries := (view w.log x.n).tries + es.length })
    (hM : (view w.log x.n).tries + es.length ≤ M + 1) :
    ∃ w', promote { w with log := w.log ++ es } x fd bl os = .ok w' ∧ Ok M w' ∧ (w'.waiting = w.waiting.filter fun y => y.n != x.n) ∧
      w'.freeW = w.freeW ∧ w'.sess = w.sess ++ [⟨x.n, x.ep, fd, true, bl⟩] ∧ w'.free = w.free ∧ w'.maxCount = w.maxCount ∧ w'.timeout = w.timeout := by
  obtain ⟨⟨h1, h2, h3, h4, h5, h6, h7, h8⟩, _, _, hsid⟩ := hi.wait x (by simp)
  have hfd : fd ∈ w.socks := (hi.drop_sock hx).1
  obtain ⟨r, hr1, hr2⟩ := addSess_ok { w with log := w.log ++ es } x.n x.ep fd bl (hlow fd hfd).2
  rw [idOf_has _ _ hsid] at hr1
  unfold promote
  rw [hr1, bind_ok]
  dsimp only
  rw [tell_eq, sendAll_eq]
  refine ⟨_, rfl, ⟨?_, hmax, hlow⟩, rfl, rfl, rfl, rfl, rfl, rfl⟩
  have := hi.promote hx ⟨x.n, x.ep, fd, true, bl⟩ rfl rfl hsid
    (es ++ beganLog x.n x.ep.secured ++ tellLog x.n x.cb .connected ++ sendLog x.n x.msgs os) (by
      intro e he
      simp only [List.mem_append, beganLog, tellLog, List.mem_map] at he
      rcases he with ((he | he) | ⟨m, _, rfl⟩) | he
      · exact hes e he
      · split at he
        · cases he
        · rw [List.mem_singleton] at he; subst he; rfl
      · rfl
      · exact sendLog_about _ _ _ e he) (by
      rw [views, List.foldl_append, List.foldl_append, List.foldl_append, htr, view_began, view_tell, view_sendLog]
      refine ⟨x.cb, h1, ?_, ?_, h4, ?_, ?_⟩
      · show _ ++ _ = _; rw [show _ = _ from h2]; rfl
      · show _ + _ = _; rw [show _ = _ from h3, Nat.zero_add]
      · show Streamed _ (_ ++ _); rw [show _ = _ from h6, List.nil_append, show _ = _ from h5]; exact sendWrites_streamed _ _
      · show _ = _ ++ _; rw [show _ = _ from h8]; exact h7) (by
      rw [views, List.foldl_append, List.foldl_append, List.foldl_append, htr, view_began, view_tell, view_sendLog]; exact hM)
    (r := r) (c := fdClr w.cfds fd) hr2 (by
      intro z
      unfold fdClr
      rw [List.mem_filter]
      simp only [bne_iff_ne]
      exact ⟨fun ⟨a, b⟩ => ⟨(hcs z b).2 a, b⟩, fun ⟨a, b⟩ => ⟨(hcs z b).1 a, b⟩⟩)
  simp only [List.append_assoc] at this ⊢
  refine this.perm ?_ ?_
  · exact List.perm_middle.symm
  · rw [restW, List.filter_append]
    refine List.Perm.append (List.Perm.refl _) ?_
    rw [List.filter_eq_self.2]
    intro y hy
    obtain ⟨z, hz, hzn⟩ := hw
    rw [List.map_append, List.nodup_append] at hnw
    simpa using fun e : y.n = x.n => hnw.2.2 z.n (List.mem_map_of_mem hz) y.n (List.mem_map_of_mem hy) (by omega)

end Verif.TcpConn
