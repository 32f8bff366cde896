import Verif.TcpConn.Lemmas

/-! Every call keeps the invariant and is defined, continued. -/

namespace Verif.TcpConn

open Spec

variable {M : Nat}

theorem nodup_eq {α : Type} (f : α → Nat) : ∀ (l : List α) (a b : α), (l.map f).Nodup → a ∈ l → b ∈ l → f a = f b → a = b := by
  intro l a b hn ha hb e
  have h1 := (filter_names f l a hn ha).mem_iff.1 hb
  rcases List.mem_cons.1 h1 with h | h
  · exact h.symm
  · have := (List.mem_filter.1 h).2
    simp [e] at this

theorem Ok.nodupW {w : World} (h : Ok M w) : ((w.waiting ++ w.freeW).map (·.n)).Nodup := (List.nodup_append.1 h.inv.nodup).2.1
theorem Ok.nodupS {w : World} (h : Ok M w) : ((w.sess ++ w.free).map (·.n)).Nodup := (List.nodup_append.1 h.inv.nodup).1

theorem setWait_perm {w : World} (h : ((w.waiting ++ w.freeW).map (·.n)).Nodup) {x y : Wait} (hx : x ∈ w.waiting) (hy : y.n = x.n) :
    ((setWait w y).waiting ++ (setWait w y).freeW).Perm (y :: restW w x.n) := by
  have := map_names (w.waiting ++ w.freeW) x y h (by simp [hx]) hy
  rw [List.map_append] at this
  rw [List.map_append, List.nodup_append] at h
  have e : (w.freeW.map fun z => if z.n == y.n then y else z) = w.freeW := by
    conv => rhs; rw [← List.map_id w.freeW]
    refine List.map_congr_left fun z hz => ?_
    rw [if_neg]
    · rfl
    · simpa [hy] using fun e : z.n = x.n => h.2.2 x.n (List.mem_map_of_mem hx) z.n (List.mem_map_of_mem hz) e.symm
  rw [e] at this
  exact this

theorem findSess_mem {w : World} {ep : Ep} {s : Sess} (h : findSess w ep = some s) : s ∈ w.sess := List.mem_of_find?_eq_some h
theorem findWait_mem {w : World} {ep : Ep} {s : Wait} (h : findWait w ep = some s) : s ∈ w.waiting := List.mem_of_find?_eq_some h

theorem sendOpen_ok {w : World} (h : Ok M w) {s : Sess} (hs : s ∈ w.sess) (m : Bytes) (os : Os) : Ok M (sendOpen w s m os).2 := by
  have hw : (sendOpen w s m os).2 = { w with log := w.log ++ [.took s.n m, .wrote s.n (sendLoop m (os.sends.headD [])).1 (sendLoop m (os.sends.headD [])).2] } := by
    unfold sendOpen; dsimp only; split <;> simp [write, World.emit]
  rw [hw]
  have hs' : s ∈ w.sess ++ w.free := by simp [hs]
  obtain ⟨⟨cb, h1, h2, h3, h4, h5, h6⟩, _⟩ := h.inv.sess s hs'
  refine ⟨?_, h.max, h.low⟩
  have := (h.split_sess hs').on_sess [.took s.n m, .wrote s.n (sendLoop m (os.sends.headD [])).1 (sendLoop m (os.sends.headD [])).2]
    (by simp [About]) (by
      rw [views]; simp only [List.foldl_cons, List.foldl_nil, see, if_true]
      exact ⟨cb, h1, h2, h3, h4, streamed_append _ _ _ _ h5 (sendLoop_spec _ _).1 (sendLoop_spec _ _).2, h6⟩) (by
      rw [views]; simp only [List.foldl_cons, List.foldl_nil, see, if_true]; exact h.inv.tries s.n)
  exact this.perm (filter_names (fun y : Sess => y.n) _ s h.nodupS hs').symm (List.Perm.refl _)

theorem enqueue_ok {w : World} (h : Ok M w) {x : Wait} (hx : x ∈ w.waiting) (m : Bytes) : Ok M (enqueue w x m) := by
  have hx' : x ∈ w.waiting ++ w.freeW := by simp [hx]
  have e : enqueue w x m = { setWait w { x with msgs := x.msgs ++ [m] } with log := w.log ++ [.took x.n m, .ref x.n m] } := by
    unfold enqueue setWait
    simp only [World.emit, List.append_assoc, List.cons_append, List.nil_append]
    congr 1
    refine List.map_congr_left fun z hz => ?_
    by_cases hn : z.n = x.n
    · rw [nodup_eq (fun y : Wait => y.n) _ z x h.nodupW (by simp [hz]) hx' hn]
    · simp [hn]
  obtain ⟨⟨h1, h2, h3, h4, h5, h6, h7, h8⟩, ht, hc, hsid⟩ := h.inv.wait x hx'
  rw [e]
  refine ⟨?_, h.max, h.low⟩
  have := (h.split_wait hx').on_wait (y := { x with msgs := x.msgs ++ [m] }) rfl rfl hsid [.took x.n m, .ref x.n m]
    (by simp [About]) (by
      rw [views]; simp only [List.foldl_cons, List.foldl_nil, see, if_true]
      exact ⟨h1, h2, h3, h4, by simp [h5], h6, by simp [h7], h8⟩) (by
      rw [views]; simp only [List.foldl_cons, List.foldl_nil, see, if_true]; exact ht) hc
  exact this.perm (List.Perm.refl _) (setWait_perm (y := { x with msgs := x.msgs ++ [m] }) h.nodupW hx rfl).symm

/-- What is found is in the lists. -/
def FoundIn (w : World) : Found → Prop
  | .session s _ => s ∈ w.sess
  | .waits ws _ => ws ∈ w.waiting
  | .nothing => True

theorem watch_ok (w : World) {fd : Nat} (h : 0 < fd ∧ fd < 1024) :
    ∃ c, watch w fd = .ok { w with cfds := c } ∧ ∀ z, z ∈ c ↔ z = fd ∨ z ∈ w.cfds := by
  obtain ⟨c, h1, h2⟩ := fdSet_ok w.cfds fd h.2
  refine ⟨c, ?_, h2⟩
  unfold watch; rw [if_pos h.1, h1, bind_ok]

theorem idOf_fields (w : World) (ep : Ep) : (idOf w ep).2 = { w with ids := (idOf w ep).2.ids } := by
  unfold idOf; split <;> rfl

theorem filter_added (l : List Nat) (fd : Nat) (h : fd ∉ l) : ((l ++ [fd]).filter fun x => x != fd) = l := by
  rw [List.filter_append, List.filter_eq_self.2 fun a ha => by simpa using fun e : a = fd => h (e ▸ ha)]
  simp

theorem openNew_ok {w : World} (h : Ok M w) (ep : Ep) (cb : Option Nat) (os : Os) (hp : Good os.pick) :
    ∃ f w', openNew w ep cb os = .ok (f, w') ∧ Ok M w' ∧ FoundIn w' f := by
  have hfr : view w.log w.next = {} := h.inv.fresh _ (Nat.le_refl _)
  have hskip : Inv M (w.sess ++ w.free) (w.waiting ++ w.freeW) w.rfds w.cfds w.socks (w.next + 1) (w.log ++ [.tried w.next]) :=
    h.inv.skip _ (by simp [About]) (by rw [views, hfr]; simp [see, Never]) (by rw [views, hfr]; simp [see])
  unfold openNew socket
  dsimp only [World.emit]
  have hlow : ∀ fd, os.pick.fd w.socks = some fd → ∀ z ∈ w.socks ++ [fd], 0 < z ∧ z < 1024 := by
    intro fd hfd z hz
    rcases List.mem_append.1 hz with hz | hz
    · exact h.low z hz
    · rw [List.mem_singleton] at hz; subst hz; exact hp _ _ hfd
  cases hc : os.conn with
  | failed => exact ⟨_, _, rfl, ⟨hskip, h.max, h.low⟩, trivial⟩
  | connected =>
    cases hfd : os.pick.fd w.socks with
    | none => exact ⟨_, _, rfl, ⟨hskip, h.max, h.low⟩, trivial⟩
    | some fd =>
      dsimp only [Option.map_some, opened]
      have hf := os.pick.unused _ _ hfd
      split
      · obtain ⟨r, hr, hr2⟩ := addSess_ok (({ w with next := w.next + 1, log := w.log ++ [.tried w.next], socks := w.socks ++ [fd] } : World).emit (.made w.next none))
          w.next ep fd false (hp _ _ hfd).2
        dsimp only [World.emit] at hr
        rw [hr, bind_ok]
        have he := idOf_fields { w with next := w.next + 1, log := w.log ++ [.tried w.next] ++ [.made w.next none], socks := w.socks ++ [fd] } ep
        have h1 : (idOf { w with next := w.next + 1, log := w.log ++ [.tried w.next] ++ [.made w.next none], socks := w.socks ++ [fd] } ep).1 =
          (idOf { w with next := w.next + 1, log := w.log ++ [.tried w.next], socks := w.socks ++ [fd] } ep).1 := by
          unfold idOf; split <;> rfl
        rw [he]
        refine ⟨_, _, rfl, ⟨?_, h.max, hlow fd hfd⟩, ?_⟩
        · have := h.inv.new_sess ⟨w.next, (idOf { w with next := w.next + 1, log := w.log ++ [.tried w.next] ++ [.made w.next none], socks := w.socks ++ [fd] } ep).1, fd, true, false⟩
            rfl hf (idOf_sid _ _) ([.tried w.next, .made w.next none] ++ beganLog w.next ep.secured) (by
              intro e he
              simp only [beganLog, List.mem_append, List.mem_cons, List.not_mem_nil, or_false] at he
              rcases he with (rfl | rfl) | he
              · rfl
              · rfl
              · split at he
                · cases he
                · rw [List.mem_singleton] at he; subst he; rfl) (by
              rw [views, hfr, List.foldl_append, view_began]
              simp only [List.foldl_cons, List.foldl_nil, see, if_true]
              exact ⟨none, rfl, rfl, by simp [idOf_secured], rfl, trivial, rfl⟩) (by
              rw [views, hfr, List.foldl_append, view_began]; simp [see]) (r := r) hr2
          simp only [List.append_assoc, List.cons_append, List.nil_append] at this ⊢
          exact this.perm List.perm_middle.symm (List.Perm.refl _)
        · dsimp only [FoundIn]
          rw [h1]; simp
      · rw [close_ok (by simp), bind_ok]
        dsimp only
        rw [filter_added _ _ hf]
        exact ⟨_, _, rfl, ⟨hskip, h.max, h.low⟩, trivial⟩
  | connecting =>
    cases hfd : os.pick.fd w.socks with
    | none => exact ⟨_, _, rfl, ⟨hskip, h.max, h.low⟩, trivial⟩
    | some fd =>
      dsimp only [Option.map_some, opened]
      have hf := os.pick.unused _ _ hfd
      split
      · unfold addWait
        dsimp only
        have he := idOf_fields { w with next := w.next + 1, log := w.log ++ [.tried w.next] ++ [.made w.next cb], socks := w.socks ++ [fd] } ep
        have h1 : (idOf { w with next := w.next + 1, log := w.log ++ [.tried w.next] ++ [.made w.next cb], socks := w.socks ++ [fd] } ep).1 =
          (idOf { w with next := w.next + 1, log := w.log ++ [.tried w.next], socks := w.socks ++ [fd] } ep).1 := by
          unfold idOf; split <;> rfl
        rw [he]
        dsimp only
        obtain ⟨c, hc1, hc2⟩ := watch_ok { w with next := w.next + 1, log := w.log ++ [.tried w.next] ++ [.made w.next cb], socks := w.socks ++ [fd], ids := (idOf { w with next := w.next + 1, log := w.log ++ [.tried w.next] ++ [.made w.next cb], socks := w.socks ++ [fd] } ep).2.ids, waiting := w.waiting ++
              [⟨w.next, (idOf { w with next := w.next + 1, log := w.log ++ [.tried w.next] ++ [.made w.next cb], socks := w.socks ++ [fd] } ep).1, some fd, os.now, 0, false, false, [], cb⟩] } (hp _ _ hfd)
        rw [hc1, bind_ok]
        refine ⟨_, _, rfl, ⟨?_, h.max, hlow fd hfd⟩, ?_⟩
        · have := h.inv.new_wait ⟨w.next, (idOf { w with next := w.next + 1, log := w.log ++ [.tried w.next] ++ [.made w.next cb], socks := w.socks ++ [fd] } ep).1, some fd, os.now, 0, false, false, [], cb⟩ fd
            rfl rfl hf (idOf_sid _ _) [.tried w.next, .made w.next cb] (by simp [About]) (by
              rw [views, hfr]; simp [see, Pending]) (by
              rw [views, hfr]; simp [see]) (Nat.zero_le _) (c := c) hc2
          simp only [List.append_assoc, List.cons_append, List.nil_append] at this ⊢
          exact this.perm (List.Perm.refl _) List.perm_middle.symm
        · dsimp only [FoundIn]
          rw [h1]; simp
      · rw [close_ok (by simp), bind_ok]
        dsimp only
        rw [filter_added _ _ hf]
        exact ⟨_, _, rfl, ⟨hskip, h.max, h.low⟩, trivial⟩

theorem connectLocked_ok {w : World} (h : Ok M w) (ep : Ep) (cb : Option Nat) (os : Os) (hp : Good os.pick) :
    ∃ f w', connectLocked w ep cb os = .ok (f, w') ∧ Ok M w' ∧ FoundIn w' f := by
  unfold connectLocked
  split
  · rename_i hs; exact ⟨_, _, rfl, h, findSess_mem hs⟩
  · split
    · exact ⟨_, _, rfl, h, trivial⟩
    · split
      · rename_i hs; exact ⟨_, _, rfl, h, findWait_mem hs⟩
      · exact openNew_ok h ep cb os hp

theorem send_ok {w : World} (h : Ok M w) (ep : Ep) (m : Bytes) (os : Os) (hp : Good os.pick) :
    ∃ r w', send w ep m os = .ok (r, w') ∧ Ok M w' := by
  obtain ⟨f, w', h1, h2, h3⟩ := connectLocked_ok h ep none os hp
  unfold send
  rw [h1, bind_ok]
  cases f with
  | session s c => exact ⟨_, _, rfl, sendOpen_ok h2 h3 m os⟩
  | waits ws c =>
    dsimp only
    split
    · exact ⟨_, _, rfl, enqueue_ok h2 h3 m⟩
    · exact ⟨_, _, rfl, h2⟩
  | nothing => exact ⟨_, _, rfl, h2⟩

theorem send2_ok {w : World} (h : Ok M w) (ep : Ep) (m : Bytes) (q : Bool) (os : Os) : Ok M (send2 w ep m q os).2 := by
  unfold send2
  split
  · rename_i hs; exact sendOpen_ok h (findSess_mem hs) m os
  · split
    · exact h
    · split
      · split
        · rename_i hs
          split
          · exact enqueue_ok h (findWait_mem hs) m
          · exact h
        · exact h
      · exact h

theorem filter_left {α : Type} (f : α → Nat) (a b : List α) (s : α) (hn : ((a ++ b).map f).Nodup) (hs : s ∈ a) :
    ((a ++ b).filter fun x => f x != f s) = (a.filter fun x => f x != f s) ++ b := by
  rw [List.filter_append, List.filter_eq_self (l := b) |>.2]
  intro x hx
  rw [List.map_append, List.nodup_append] at hn
  simpa using fun e : f x = f s => hn.2.2 (f s) (List.mem_map_of_mem hs) (f x) (List.mem_map_of_mem hx) e.symm

theorem endSess_ok {w : World} (h : Ok M w) (ep : Ep) (b : Bool) : Ok M (endSess w ep b).2 := by
  unfold endSess
  split
  · rename_i s hs
    have hm := findSess_mem hs
    have hs' : s ∈ w.sess ++ w.free := by simp [hm]
    refine ⟨?_, h.max, h.low⟩
    have := (h.split_sess hs').same_sess (s' := { s with notify := b }) rfl rfl rfl
    refine this.perm ?_ (List.Perm.refl _)
    rw [restS, filter_left (fun y : Sess => y.n) _ _ s h.nodupS hm]
    dsimp only
    rw [← List.append_assoc]
    exact (List.perm_append_singleton _ _).symm
  · split
    · rename_i x hx
      have hm := findWait_mem hx
      refine ⟨?_, h.max, h.low⟩
      refine (h.split_wait (x := x) (by simp [hm])).perm (List.Perm.refl _) ?_
      rw [restW, filter_left (fun y : Wait => y.n) _ _ x h.nodupW hm]
      dsimp only
      rw [← List.append_assoc]
      exact (List.perm_append_singleton _ _).symm
    · exact h

theorem accept_ok {w : World} (h : Ok M w) (ep : Ep) {scope : Nat} (hsc : scope < 255) (p : Pick) (hp : Good p) (ok : Bool) :
    ∃ w', accept w ep scope p ok = .ok w' ∧ Ok M w' := by
  have hfr : view w.log w.next = {} := h.inv.fresh _ (Nat.le_refl _)
  have hskip : Inv M (w.sess ++ w.free) (w.waiting ++ w.freeW) w.rfds w.cfds w.socks (w.next + 1) (w.log ++ []) :=
    h.inv.skip _ (by simp) (by rw [views, hfr]; simp [Never]) (by rw [views, hfr]; simp)
  rw [List.append_nil] at hskip
  unfold accept
  cases hfd : p.fd w.socks with
  | none => exact ⟨_, rfl, h⟩
  | some fd =>
    have hf := p.unused _ _ hfd
    dsimp only [opened]
    rw [if_pos hsc]
    have hlow : ∀ z ∈ w.socks ++ [fd], 0 < z ∧ z < 1024 := by
      intro z hz
      rcases List.mem_append.1 hz with hz | hz
      · exact h.low z hz
      · rw [List.mem_singleton] at hz; subst hz; exact hp _ _ hfd
    cases ok with
    | true =>
      rw [if_pos rfl]
      obtain ⟨r, hr, hr2⟩ := addSess_ok (({ w with next := w.next + 1, socks := w.socks ++ [fd] } : World).emit (.made w.next none))
        w.next { ep with accepted := true, sid := 0 } fd true (hp _ _ hfd).2
      rw [hr, idOf_fields]
      refine ⟨_, rfl, ?_, h.max, hlow⟩
      have := h.inv.new_sess ⟨w.next, (idOf (({ w with next := w.next + 1, socks := w.socks ++ [fd] } : World).emit (.made w.next none)) { ep with accepted := true, sid := 0 }).1, fd, true, true⟩
        rfl hf (idOf_sid _ _) ([.made w.next none] ++ beganLog w.next ep.secured) (by
          intro e he
          simp only [beganLog, List.mem_append, List.mem_cons, List.not_mem_nil, or_false] at he
          rcases he with rfl | he
          · rfl
          · split at he
            · cases he
            · rw [List.mem_singleton] at he; subst he; rfl) (by
          rw [views, hfr, List.foldl_append, view_began]
          simp only [List.foldl_cons, List.foldl_nil, see, if_true]
          exact ⟨none, rfl, rfl, by simp [idOf_secured], rfl, trivial, rfl⟩) (by
          rw [views, hfr, List.foldl_append, view_began]; simp [see]) (r := r) hr2
      simp only [List.append_assoc, List.cons_append, List.nil_append, World.emit] at this ⊢
      exact this.perm List.perm_middle.symm (List.Perm.refl _)
    | false =>
      rw [if_neg (by simp), close_ok (by simp)]
      dsimp only
      rw [filter_added _ _ hf]
      exact ⟨_, rfl, hskip, h.max, h.low⟩

theorem lost_ok {w : World} (h : Ok M w) (q : Bool) (fds : List Nat) : ∃ w', lost q w fds = .ok w' ∧ Ok M w' := by
  unfold lost
  split
  · rename_i s hs
    obtain ⟨w', h1, h2, _⟩ := freeSess_ok h q (s := s) (by simp [List.mem_of_find?_eq_some hs])
    exact ⟨w', h1, h2⟩
  · exact ⟨_, rfl, h⟩

theorem each_sess (q : Bool) : ∀ (l : List Sess) (w : World), Ok M w → (l.map (·.n)).Nodup → (∀ s ∈ l, s ∈ w.sess ++ w.free) →
    ∃ w', each (freeSess q) w l = .ok w' ∧ Ok M w' ∧ w'.waiting = w.waiting ∧ w'.freeW = w.freeW ∧
      (∀ s, s ∈ w'.sess ↔ s ∈ w.sess ∧ s.n ∉ l.map (·.n)) ∧ (∀ s, s ∈ w'.free ↔ s ∈ w.free ∧ s.n ∉ l.map (·.n)) := by
  intro l
  induction l with
  | nil => intro w h _ _; exact ⟨w, rfl, h, rfl, rfl, by simp, by simp⟩
  | cons a r ih =>
    intro w h hn hm
    rw [List.map_cons, List.nodup_cons] at hn
    obtain ⟨w1, h1, h2, h3, h4, h5, h6, _⟩ := freeSess_ok h q (hm a (by simp))
    rw [each, h1, bind_ok]
    obtain ⟨w', g1, g2, g3, g4, g5, g6⟩ := ih w1 h2 hn.2 (by
      intro s hs
      have hne : s.n ≠ a.n := fun e => hn.1 (e ▸ List.mem_map_of_mem hs)
      rw [h3, h4, ← List.filter_append, List.mem_filter]
      exact ⟨hm s (by simp [hs]), by simpa using hne⟩)
    refine ⟨w', g1, g2, g3.trans h5, g4.trans h6, fun s => ?_, fun s => ?_⟩
    · rw [g5, h3, List.mem_filter, List.map_cons, List.mem_cons]; simp only [bne_iff_ne, not_or, and_assoc]
    · rw [g6, h4, List.mem_filter, List.map_cons, List.mem_cons]; simp only [bne_iff_ne, not_or, and_assoc]

theorem each_wait (t : Told) (ht : t ≠ .connected) : ∀ (l : List Wait) (w : World), Ok M w → (l.map (·.n)).Nodup → (∀ s ∈ l, s ∈ w.waiting ++ w.freeW) →
    ∃ w', each (fun w ws => freeWait w ws t) w l = .ok w' ∧ Ok M w' ∧ w'.sess = w.sess ∧ w'.free = w.free ∧
      (∀ s, s ∈ w'.waiting ↔ s ∈ w.waiting ∧ s.n ∉ l.map (·.n)) ∧ (∀ s, s ∈ w'.freeW ↔ s ∈ w.freeW ∧ s.n ∉ l.map (·.n)) := by
  intro l
  induction l with
  | nil => intro w h _ _; exact ⟨w, rfl, h, rfl, rfl, by simp, by simp⟩
  | cons a r ih =>
    intro w h hn hm
    rw [List.map_cons, List.nodup_cons] at hn
    obtain ⟨w1, h1, h2, h3, h4, h5, h6, _⟩ := freeWait_ok h (hm a (by simp)) t ht
    rw [each, h1, bind_ok]
    obtain ⟨w', g1, g2, g3, g4, g5, g6⟩ := ih w1 h2 hn.2 (by
      intro s hs
      have hne : s.n ≠ a.n := fun e => hn.1 (e ▸ List.mem_map_of_mem hs)
      rw [h3, h4, ← List.filter_append, List.mem_filter]
      exact ⟨hm s (by simp [hs]), by simpa using hne⟩)
    refine ⟨w', g1, g2, g3.trans h5, g4.trans h6, fun s => ?_, fun s => ?_⟩
    · rw [g5, h3, List.mem_filter, List.map_cons, List.mem_cons]; simp only [bne_iff_ne, not_or, and_assoc]
    · rw [g6, h4, List.mem_filter, List.map_cons, List.mem_cons]; simp only [bne_iff_ne, not_or, and_assoc]

theorem nil_of {α : Type} (f : α → Nat) (l l' : List α) (h : ∀ s, s ∈ l' ↔ s ∈ l ∧ f s ∉ l.map f) : l' = [] := by
  refine List.eq_nil_iff_forall_not_mem.2 fun s hs => ?_
  exact ((h s).1 hs).2 (List.mem_map_of_mem ((h s).1 hs).1)

theorem mem_kept {α : Type} (f : α → Nat) (l l2 l' : List α) (hn : ((l ++ l2).map f).Nodup)
    (h : ∀ s, s ∈ l' ↔ s ∈ l ∧ f s ∉ l2.map f) : ∀ s, s ∈ l' ↔ s ∈ l := by
  intro s
  rw [h]
  rw [List.map_append, List.nodup_append] at hn
  exact ⟨fun h => h.1, fun h => ⟨h, fun h2 => hn.2.2 (f s) (List.mem_map_of_mem h) (f s) h2 rfl⟩⟩

theorem signal_ok {w : World} (h : Ok M w) (q : Bool) :
    ∃ w', signal q w = .ok w' ∧ Ok M w' ∧ w'.free = [] ∧ w'.freeW = [] ∧ (∀ s, s ∈ w'.sess ↔ s ∈ w.sess) ∧ (∀ s, s ∈ w'.waiting ↔ s ∈ w.waiting) := by
  unfold signal
  have n1 := h.nodupS
  have n2 := h.nodupW
  rw [List.map_append, List.nodup_append] at n1 n2
  obtain ⟨w1, h1, h2, h3, h4, h5, h6⟩ := each_sess q w.free w h n1.2.1 (fun s hs => by simp [hs])
  rw [h1, bind_ok]
  obtain ⟨w2, g1, g2, g3, g4, g5, g6⟩ := each_wait .error (by decide) w1.freeW w1 h2 (by rw [h4]; exact n2.2.1) (fun s hs => by simp [hs])
  refine ⟨w2, g1, g2, ?_, nil_of (fun y : Wait => y.n) w1.freeW _ g6, ?_, ?_⟩
  · rw [g4]; exact nil_of (fun y : Sess => y.n) w.free _ h6
  · rw [g3]; exact mem_kept (fun y : Sess => y.n) _ _ _ h.nodupS h5
  · rw [h3, h4] at g5; exact mem_kept (fun y : Wait => y.n) _ _ _ h.nodupW g5

theorem shutdown_ok {w : World} (h : Ok M w) (q : Bool) (dev : Nat) :
    ∃ w', shutdown q w dev = .ok w' ∧ Ok M w' ∧ w'.free = [] ∧ w'.freeW = [] ∧
      (∀ s, s ∈ w'.sess ↔ s ∈ w.sess ∧ s.ep.dev ≠ dev) ∧ (∀ s, s ∈ w'.waiting ↔ s ∈ w.waiting ∧ s.ep.dev ≠ dev) := by
  unfold shutdown
  have n1 := h.nodupS
  have n2 := h.nodupW
  rw [List.map_append, List.nodup_append] at n1 n2
  obtain ⟨w1, h1, h2, h3, h4, h5, h6⟩ := each_sess q (w.sess.filter fun s => s.ep.dev == dev) w h
    ((List.filter_sublist.map _).nodup n1.1) (fun s hs => by simp [(List.mem_filter.1 hs).1])
  rw [h1, bind_ok]
  obtain ⟨w2, g1, g2, g3, g4, g5, g6⟩ := each_wait .error (by decide) (w1.waiting.filter fun s => s.ep.dev == dev) w1 h2
    ((List.filter_sublist.map _).nodup (by rw [h3]; exact n2.1)) (fun s hs => by simp [(List.mem_filter.1 hs).1])
  rw [g1, bind_ok]
  obtain ⟨w3, k1, k2, k3, k4, k5, k6⟩ := signal_ok g2 q
  refine ⟨w3, k1, k2, k3, k4, fun s => ?_, fun s => ?_⟩
  · rw [k5, g3, h5]
    constructor
    · rintro ⟨a, b⟩
      exact ⟨a, fun e => b (List.mem_map_of_mem (List.mem_filter.2 ⟨a, by simpa using e⟩))⟩
    · rintro ⟨a, b⟩
      refine ⟨a, fun hm => ?_⟩
      obtain ⟨y, hy, he⟩ := List.mem_map.1 hm
      have hy' := List.mem_filter.1 hy
      have := nodup_eq (fun y : Sess => y.n) w.sess y s n1.1 hy'.1 a he
      subst this
      exact b (by simpa using hy'.2)
  · rw [k6, g5, h3]
    constructor
    · rintro ⟨a, b⟩
      exact ⟨a, fun e => b (List.mem_map_of_mem (List.mem_filter.2 ⟨a, by simpa using e⟩))⟩
    · rintro ⟨a, b⟩
      refine ⟨a, fun hm => ?_⟩
      obtain ⟨y, hy, he⟩ := List.mem_map.1 hm
      have hy' := List.mem_filter.1 hy
      have := nodup_eq (fun y : Wait => y.n) w.waiting y s n2.1 hy'.1 a he
      subst this
      exact b (by simpa using hy'.2)

/-! ### Descriptors that are ready, timeouts -/

theorem processWait_ok {w : World} (h : Ok M w) {x : Wait} (hx : x ∈ w.waiting) {fd : Nat} (hfd : x.sock = some fd) (os : Os) :
    ∃ w', processWait w x fd os = .ok w' ∧ Ok M w' := by
  have hx' : x ∈ w.waiting ++ w.freeW := by simp [hx]
  have hsp := h.split_wait hx'
  unfold processWait
  split
  · have := promote_ok ⟨x, hx, rfl⟩ hsp (fun z _ => Iff.rfl) hfd h.max h.low true os.sends [] h.nodupW (by simp) (by simp)
      (by simpa using h.inv.tries x.n)
    obtain ⟨w', h1, h2, _⟩ := this
    rw [List.append_nil] at h1
    exact ⟨w', h1, h2⟩
  · obtain ⟨hm, hi⟩ := hsp.drop_sock hfd
    obtain ⟨hp, ht, hc, hsid⟩ := h.inv.wait x hx'
    rw [dropSock, close_ok (by exact hm), bind_ok]
    have key : ∀ y : Wait, y.n = x.n → y.sock = none → y.ep = x.ep → y.cb = x.cb → y.msgs = x.msgs → y.count = x.count →
        Ok M (setWait { w with cfds := fdClr w.cfds fd, socks := w.socks.filter fun x => x != fd } y) := by
      intro y e1 e2 e3 e4 e5 e6
      refine ⟨?_, h.max, fun fd hf => h.low fd (List.mem_filter.1 hf).1⟩
      have := hi.on_wait (y := y) e1 e2 (by rw [e3]; exact hsid) [] (by simp) (by rw [List.append_nil, e4, e5]; exact hp)
        (by rw [List.append_nil, e6]; exact ht) (by rw [e6]; exact hc)
      rw [List.append_nil] at this
      exact this.perm (List.Perm.refl _) (setWait_perm (w := { w with cfds := fdClr w.cfds fd, socks := w.socks.filter fun x => x != fd }) h.nodupW hx e1).symm
    split
    · exact ⟨_, rfl, key _ rfl rfl rfl rfl rfl rfl⟩
    · exact ⟨_, rfl, key _ rfl rfl rfl rfl rfl rfl⟩

theorem ready_ok {w : World} (h : Ok M w) (fds : List Nat) (os : Os) : ∃ w', ready w fds os = .ok w' ∧ Ok M w' := by
  unfold ready
  split
  · rename_i x hx
    split
    · rename_i fd hfd
      exact processWait_ok h (List.mem_of_find?_eq_some hx) hfd os
    · exact ⟨_, rfl, h⟩
  · exact ⟨_, rfl, h⟩

/-- What a retry does to the list: the attempt is gone, or it was made again. -/
def Retried (w w' : World) (x : Wait) (now : Nat) (again : Bool) : Prop :=
  (again = false ∧ w'.waiting = w.waiting.filter fun y => y.n != x.n) ∨
  (again = true ∧ ∃ fd, w'.waiting = w.waiting.map fun y => if y.n == x.n then
    { x with count := x.count + 1, start := now, force := false, sock := some fd } else y)

theorem retryWait_ok {w : World} (h : Ok M w) {x : Wait} (hx : x ∈ w.waiting) (hc : x.count < w.maxCount) (now : Nat) (os : Os)
    (hp : Good os.pick) (hok : os.okS = true) :
    ∃ b w', retryWait w x now os = .ok (b, w') ∧ Ok M w' ∧ w'.maxCount = w.maxCount ∧ w'.timeout = w.timeout ∧ Retried w w' x now b := by
  have hx' : x ∈ w.waiting ++ w.freeW := by simp [hx]
  have hsp := h.split_wait hx'
  obtain ⟨hpd, ht, hcM, hsid⟩ := h.inv.wait x hx'
  have hmax := h.max
  -- the old socket is closed
  have h0 : ∃ c k, dropSock w x.sock = .ok { w with cfds := c, socks := k } ∧ (∀ z ∈ k, z ∈ w.socks) ∧
      Inv M (w.sess ++ w.free) ({ x with sock := none } :: restW w x.n) w.rfds c k w.next w.log := by
    cases hs : x.sock with
    | none =>
      refine ⟨w.cfds, w.socks, rfl, fun _ h => h, ?_⟩
      have : ({ x with sock := none } : Wait) = x := by cases x; simp_all
      rw [this]; exact hsp
    | some fd =>
      obtain ⟨hm, hi⟩ := hsp.drop_sock hs
      refine ⟨_, _, ?_, ?_, hi⟩
      · rw [dropSock, close_ok (by exact hm)]
      · exact fun z hz => (List.mem_filter.1 hz).1
  obtain ⟨c, k, h1, hk, hi⟩ := h0
  unfold retryWait
  rw [h1, bind_ok]
  have hlow : ∀ fd ∈ k, 0 < fd ∧ fd < 1024 := fun fd hf => h.low fd (hk fd hf)
  have hgive : ∃ w', freeWait { w with cfds := c, socks := k, log := w.log ++ [.tried x.n] } { x with sock := none } .timeout = .ok w' ∧ Ok M w' ∧
      (w'.waiting = w.waiting.filter fun y => y.n != x.n) ∧ w'.maxCount = w.maxCount ∧ w'.timeout = w.timeout := by
    obtain ⟨w', a1, a2, a3, _, _, _, a4, a5⟩ := freeWait_ok' (w := { w with cfds := c, socks := k }) (x := { x with sock := none }) hi h.max hlow .timeout (by decide)
      [.tried x.n] (by simp [About]) (by simp [see]) (by show _ + 1 ≤ _; rw [show (view w.log x.n).tries = _ from ht]; omega)
    exact ⟨w', a1, a2, a3, a4, a5⟩
  unfold socket
  dsimp only [World.emit]
  cases hcn : os.conn with
  | failed =>
    obtain ⟨w', a1, a2, a3, a4, a5⟩ := hgive
    dsimp only
    rw [a1, bind_ok]
    exact ⟨_, _, rfl, a2, a4, a5, .inl ⟨rfl, a3⟩⟩
  | connected =>
    cases hfd : os.pick.fd k with
    | none =>
      obtain ⟨w', a1, a2, a3, a4, a5⟩ := hgive
      dsimp only [Option.map_none]
      rw [a1, bind_ok]
      exact ⟨_, _, rfl, a2, a4, a5, .inl ⟨rfl, a3⟩⟩
    | some fd =>
      dsimp only [Option.map_some, opened]
      rw [if_pos hok]
      have hf := os.pick.unused _ _ hfd
      have hi2 := hi.set_sock (x := { x with sock := none }) rfl hf (c := fd :: c) (by simp)
      obtain ⟨w', a1, a2, a3, _, _, _, a4, a5⟩ := promote_ok (w := { w with cfds := c, socks := k ++ [fd] }) (x := { x with sock := some fd }) (cs := fd :: c) ⟨x, hx, rfl⟩ hi2 (by
        intro z hz; simp [hz]) rfl h.max (by
        intro z hz
        rcases List.mem_append.1 hz with hz | hz
        · exact hlow z hz
        · rw [List.mem_singleton] at hz; subst hz; exact hp _ _ hfd) false os.sends [.tried x.n] h.nodupW (by simp [About]) (by simp [see])
        (by show _ + 1 ≤ _; rw [show (view w.log x.n).tries = _ from ht]; omega)
      have e : promote { w with cfds := c, socks := k ++ [fd], log := w.log ++ [.tried x.n] } x fd false os.sends = .ok w' := a1
      rw [e, bind_ok]
      exact ⟨_, _, rfl, a2, a4, a5, .inl ⟨rfl, a3⟩⟩
  | connecting =>
    cases hfd : os.pick.fd k with
    | none =>
      obtain ⟨w', a1, a2, a3, a4, a5⟩ := hgive
      dsimp only [Option.map_none]
      rw [a1, bind_ok]
      exact ⟨_, _, rfl, a2, a4, a5, .inl ⟨rfl, a3⟩⟩
    | some fd =>
      dsimp only [Option.map_some, opened]
      have hf := os.pick.unused _ _ hfd
      obtain ⟨c', hc1, hc2⟩ := watch_ok (setWait { w with cfds := c, socks := k ++ [fd], log := w.log ++ [.tried x.n] }
        { x with count := x.count + 1, start := now, force := false, sock := some fd }) (hp _ _ hfd)
      rw [hc1, bind_ok]
      refine ⟨_, _, rfl, ⟨?_, h.max, ?_⟩, rfl, rfl, .inr ⟨rfl, fd, rfl⟩⟩
      · have hi2 := hi.set_sock (x := { x with sock := none }) rfl hf (c := c') hc2
        have := hi2.on_wait (y := { x with count := x.count + 1, start := now, force := false, sock := some fd }) rfl rfl hsid [.tried x.n]
          (by simp [About]) (by
            rw [views]; simp only [List.foldl_cons, List.foldl_nil, see, if_true]; exact hpd) (by
            rw [views]; simp only [List.foldl_cons, List.foldl_nil, see, if_true]
            rw [show (view w.log x.n).tries = _ from ht]) (by show x.count + 1 ≤ M; omega)
        exact this.perm (List.Perm.refl _) (setWait_perm (w := { w with cfds := c, socks := k ++ [fd], log := w.log ++ [.tried x.n] }) (y := { x with count := x.count + 1, start := now, force := false, sock := some fd }) h.nodupW hx rfl).symm
      · intro z hz
        rcases List.mem_append.1 hz with hz | hz
        · exact hlow z hz
        · rw [List.mem_singleton] at hz; subst hz; exact hp _ _ hfd

/-- An attempt that is not over at a time. -/
def Fresh (now timeout : Nat) (x : Wait) : Prop := x.error = false ∧ x.force = false ∧ sub64 now x.start < timeout

theorem sub64_self (n : Nat) : sub64 n n = 0 := by unfold sub64; rw [Nat.add_sub_cancel_left]

theorem tickLoop_ok (now : Nat) (os : Nat → Os) (ho : ∀ n, Good (os n).pick ∧ (os n).okS = true) : ∀ (l : List Wait) (w : World) (e : Nat), Ok M w →
    (l.map (·.n)).Nodup → (∀ x ∈ l, x ∈ w.waiting) → e ≤ w.timeout →
    ∃ e' w', tickLoop now os w l e = .ok (e', w') ∧ Ok M w' ∧ w'.timeout = w.timeout ∧ e' ≤ w.timeout ∧ (0 < e → 0 < w.timeout → 0 < e') ∧
      (0 < w.timeout → ∀ x ∈ w'.waiting, (x ∈ w.waiting ∧ x.n ∉ l.map (·.n)) ∨ (Fresh now w.timeout x ∧ x.n ∈ l.map (·.n) ∧ 0 < e')) := by
  intro l
  induction l with
  | nil => intro w e h _ _ he; exact ⟨e, w, rfl, h, rfl, he, fun h _ => h, fun _ x hx => .inl ⟨hx, by simp⟩⟩
  | cons a r ih =>
    intro w e h hn hm he
    have hnW := h.nodupW
    rw [List.map_cons, List.nodup_cons] at hn
    have ha := hm a (by simp)
    have hne : ∀ x ∈ r, x.n ≠ a.n := fun x hx e => hn.1 (e ▸ List.mem_map_of_mem hx)
    have gone : ∀ w1 : World, Ok M w1 → w1.timeout = w.timeout → (w1.waiting = w.waiting.filter fun y => y.n != a.n) → ∀ e1, e1 ≤ w.timeout → (0 < e → 0 < e1) →
        ∃ e' w', tickLoop now os w1 r e1 = .ok (e', w') ∧ Ok M w' ∧ w'.timeout = w.timeout ∧ e' ≤ w.timeout ∧ (0 < e → 0 < w.timeout → 0 < e') ∧
      (0 < w.timeout → ∀ x ∈ w'.waiting, (x ∈ w.waiting ∧ x.n ∉ (a :: r).map (·.n)) ∨ (Fresh now w.timeout x ∧ x.n ∈ (a :: r).map (·.n) ∧ 0 < e')) := by
      intro w1 h1 h2 h3 e1 he1 he2
      obtain ⟨e', w', g1, g2, g3, g4, g5, g6⟩ := ih w1 e1 h1 hn.2 (fun x hx => by
        rw [h3, List.mem_filter]; exact ⟨hm x (by simp [hx]), by simpa using hne x hx⟩) (by rw [h2]; exact he1)
      rw [h2] at g3 g4 g5 g6
      refine ⟨e', w', g1, g2, g3, g4, fun h => g5 (he2 h), fun hto x hx => ?_⟩
      rcases g6 hto x hx with ⟨k1, k2⟩ | ⟨k1, k2, k3⟩
      · rw [h3, List.mem_filter] at k1
        refine .inl ⟨k1.1, ?_⟩
        rw [List.map_cons, List.mem_cons]
        rintro (e | e)
        · have := k1.2; simp [e] at this
        · exact k2 e
      · exact .inr ⟨k1, by rw [List.map_cons, List.mem_cons]; exact .inr k2, k3⟩
    rw [tickLoop]
    cases hck : check a now w.timeout w.maxCount with
    | valid v =>
      dsimp only
      have hv : Fresh now w.timeout a ∧ 0 < v ∧ v ≤ w.timeout := by
        unfold check at hck
        dsimp only at hck
        split at hck
        · cases hck
        · rename_i h1
          split at hck
          · rename_i h2
            injection hck with hck
            simp only [Bool.and_eq_true, Bool.not_eq_true', decide_eq_true_eq] at h2
            exact ⟨⟨by simpa using h1, h2.1, h2.2⟩, by omega, by omega⟩
          · split at hck <;> cases hck
      have hs : smaller e v ≤ w.timeout ∧ 0 < smaller e v := by unfold smaller; split <;> omega
      obtain ⟨e', w', g1, g2, g3, g4, g5, g6⟩ := ih w (smaller e v) h hn.2 (fun x hx => hm x (by simp [hx])) hs.1
      refine ⟨e', w', g1, g2, g3, g4, fun _ => g5 hs.2, fun hto x hx => ?_⟩
      rcases g6 hto x hx with ⟨k1, k2⟩ | ⟨k1, k2, k3⟩
      · by_cases hxa : x.n = a.n
        · have : x = a := nodup_eq (fun y : Wait => y.n) _ x a hnW (by simp [k1]) (by simp [ha]) hxa
          subst this
          exact .inr ⟨hv.1, by simp, g5 hs.2 hto⟩
        · refine .inl ⟨k1, ?_⟩
          rw [List.map_cons, List.mem_cons]
          rintro (e | e)
          · exact hxa e
          · exact k2 e
      · exact .inr ⟨k1, by rw [List.map_cons, List.mem_cons]; exact .inr k2, k3⟩
    | error =>
      dsimp only
      obtain ⟨w1, a1, a2, a3, _, _, _, a4, a5⟩ := freeWait_ok h (x := a) (by simp [ha]) .error (by decide)
      rw [a1, bind_ok]
      exact gone w1 a2 a5 a3 e he id
    | expired =>
      dsimp only
      obtain ⟨w1, a1, a2, a3, _, _, _, a4, a5⟩ := freeWait_ok h (x := a) (by simp [ha]) .timeout (by decide)
      rw [a1, bind_ok]
      exact gone w1 a2 a5 a3 e he id
    | retry =>
      dsimp only
      have hcnt : a.count < w.maxCount ∧ a.error = false := by
        unfold check at hck
        dsimp only at hck
        split at hck
        · cases hck
        · rename_i h1
          split at hck
          · cases hck
          · split at hck
            · cases hck
            · exact ⟨by omega, by simpa using h1⟩
      obtain ⟨b, w1, a1, a2, a3, a4, a5⟩ := retryWait_ok h ha hcnt.1 now (os a.n) (ho _).1 (ho _).2
      rw [a1, bind_ok]
      dsimp only
      rcases a5 with ⟨rfl, a5⟩ | ⟨rfl, fd, a5⟩
      · exact gone w1 a2 a4 a5 e he id
      · rw [if_pos rfl]
        obtain ⟨e', w', g1, g2, g3, g4, g5, g6⟩ := ih w1 w.timeout a2 hn.2 (fun x hx => by
          rw [a5, List.mem_map]; exact ⟨x, hm x (by simp [hx]), by simp [hne x hx]⟩) (by rw [a4]; exact Nat.le_refl _)
        rw [a4] at g3 g4 g5 g6
        refine ⟨e', w', g1, g2, g3, g4, fun _ hto => g5 hto hto, fun hto x hx => ?_⟩
        rcases g6 hto x hx with ⟨k1, k2⟩ | ⟨k1, k2, k3⟩
        · rw [a5, List.mem_map] at k1
          obtain ⟨y, hy, hxy⟩ := k1
          by_cases hya : y.n = a.n
          · rw [if_pos (by simp [hya])] at hxy
            subst hxy
            refine .inr ⟨⟨hcnt.2, rfl, ?_⟩, by simp, g5 hto hto⟩
            show sub64 now now < _
            rw [sub64_self]; exact hto
          · rw [if_neg (by simpa using hya)] at hxy
            subst hxy
            refine .inl ⟨hy, ?_⟩
            rw [List.map_cons, List.mem_cons]
            rintro (e | e)
            · exact hya e
            · exact k2 e
        · exact .inr ⟨k1, by rw [List.map_cons, List.mem_cons]; exact .inr k2, k3⟩

theorem tick_ok {w : World} (h : Ok M w) (now : Nat) (os : Nat → Os) (ho : ∀ n, Good (os n).pick ∧ (os n).okS = true) :
    ∃ e' w', tick now os w = .ok (e', w') ∧ Ok M w' ∧ w'.timeout = w.timeout ∧ e' ≤ w.timeout ∧
      (0 < w.timeout → ∀ x ∈ w'.waiting, Fresh now w.timeout x ∧ 0 < e') := by
  have n2 := h.nodupW
  rw [List.map_append, List.nodup_append] at n2
  obtain ⟨e', w', g1, g2, g3, g4, _, g6⟩ := tickLoop_ok now os ho w.waiting w 0 h n2.1 (fun _ h => h) (Nat.zero_le _)
  refine ⟨e', w', g1, g2, g3, g4, fun hto x hx => ?_⟩
  rcases g6 hto x hx with ⟨k1, k2⟩ | ⟨k1, _, k3⟩
  · exact absurd (List.mem_map_of_mem k1) k2
  · exact ⟨k1, k3⟩

theorem step_ok {w : World} (h : Ok M w) (op : Op) (hp : Proper M op) : ∃ w', step w op = .ok w' ∧ Ok M w' := by
  cases op with
  | send ep m os => obtain ⟨r, w', h1, h2⟩ := send_ok h ep m os hp; exact ⟨w', by simp [step, h1, bind_ok], h2⟩
  | send2 ep m q os => exact ⟨_, rfl, send2_ok h ep m q os⟩
  | connect ep cb os =>
    obtain ⟨f, w', h1, h2, _⟩ := connectLocked_ok h ep cb os hp
    exact ⟨w', by simp [step, connect, h1, bind_ok], h2⟩
  | endSess ep b => exact ⟨_, rfl, endSess_ok h ep b⟩
  | accept ep sc p ok => exact accept_ok h ep hp.1 p hp.2 ok
  | lost q fds => exact lost_ok h q fds
  | signal q => obtain ⟨w', h1, h2, _⟩ := signal_ok h q; exact ⟨w', h1, h2⟩
  | ready fds os => exact ready_ok h fds os
  | tick now os => obtain ⟨e, w', h1, h2, _⟩ := tick_ok h now os hp; exact ⟨w', by simp [step, h1, bind_ok], h2⟩
  | shutdown q d => obtain ⟨w', h1, h2, _⟩ := shutdown_ok h q d; exact ⟨w', h1, h2⟩
  | setRetry c t => exact ⟨_, rfl, h.inv, hp, h.low⟩

theorem empty_ok (hM : 5 ≤ M) : Ok M empty := by
  refine ⟨⟨by simp [empty], by simp [empty], fun n _ => rfl, by simp [empty], by simp [empty], fun n hn => absurd hn (by simp [empty]),
    fun n => by simp [empty, view], by simp [empty], List.Perm.refl _, by simp [empty], by simp [empty]⟩, hM, by simp [empty]⟩

theorem run_ok : ∀ (ops : List Op) (w : World), Ok M w → (∀ op ∈ ops, Proper M op) → ∃ w', run w ops = .ok w' ∧ Ok M w' := by
  intro ops
  induction ops with
  | nil => intro w h _; exact ⟨w, rfl, h⟩
  | cons o r ih =>
    intro w h hp
    obtain ⟨w1, h1, h2⟩ := step_ok h o (hp o (by simp))
    rw [run, h1, bind_ok]
    exact ih w1 h2 fun op ho => hp op (by simp [ho])

end Verif.TcpConn
