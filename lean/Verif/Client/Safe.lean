import Verif.Client.Once
/-! When the request machine has no undefined behaviour. -/
namespace Verif.Client
open Verif

/-- Calls a handler may make. -/
def Act.tame : Act → Bool
  | .req _ r _ => !(r.secured && r.con)
  | .post r how => !(r.secured && r.con) && how != .notSent
  | .ping .. => true
  | .stopObserve _ _ _ con sec how => !(sec && con) && how != .notSent
  | .stopMulticast => true
  | _ => false

/-- Calls outside of handlers. -/
def Act.tameTop : Act → Bool
  | .stopObserve _ _ _ con sec _ => !(sec && con)
  | .close _ => true
  | a => a.tame

/-- Operations. -/
def Op.tame : Op → Bool
  | .act a => a.tameTop
  | _ => true

structure Core (s : St) : Prop where
  acc : Acc s
  nodup : s.timers.Nodup
  timers : ∀ x ∈ s.timers, ∃ c ∈ s.cbs, c.id = x.1
  tnodup : (s.trans.map (·.id)).Nodup
  trans : ∀ x ∈ s.trans, x.id < s.nextT ∧ x.secured = false

/-- The reasons why a loop skips a request. -/
def Cb.busy (c : Cb) : Bool × Bool × Bool := (c.multicast, c.discovery, c.ref)

/-- What calls in handlers leave as it is. -/
structure Grow (s s' : St) : Prop where
  cbs : ∀ c ∈ s.cbs, ∃ c' ∈ s'.cbs, c'.id = c.id ∧ c'.busy = c.busy
  out : s'.out.map (·.id) = s.out.map (·.id)
  trans : ∃ ext, s'.trans = s.trans ++ ext

theorem Grow.refl (s) : Grow s s := ⟨fun c h => ⟨c, h, rfl, rfl⟩, rfl, [], by simp⟩
theorem Grow.trans' {a b c} (h : Grow a b) (k : Grow b c) : Grow a c := by
  refine ⟨fun x hx => ?_, by rw [k.out, h.out], ?_⟩
  · obtain ⟨y, hy, e1, e2⟩ := h.cbs x hx
    obtain ⟨z, hz, e3, e4⟩ := k.cbs y hy
    exact ⟨z, hz, by omega, by rw [e4, e2]⟩
  · obtain ⟨e1, h1⟩ := h.trans
    obtain ⟨e2, h2⟩ := k.trans
    exact ⟨e1 ++ e2, by rw [h2, h1, List.append_assoc]⟩

theorem mem_dropTimers_iff {x : Nat × Kind} {id l} (hn : l.Nodup) (h : x ∈ dropTimers id l) : x ∈ l ∧ x.1 ≠ id := by
  unfold dropTimers at h
  have n1 := hn.erase (id, Kind.remove)
  have n2 := n1.erase (id, Kind.timeout)
  rw [n2.mem_erase_iff, n1.mem_erase_iff, hn.mem_erase_iff] at h
  obtain ⟨h1, h2, h3, h4⟩ := h
  refine ⟨h4, fun e => ?_⟩
  obtain ⟨i, k⟩ := x
  cases k
  · exact h3 (by simp at e; rw [e])
  · exact h2 (by simp at e; rw [e])
  · exact h1 (by simp at e; rw [e])

theorem nodup_dropTimers {id l} (hn : l.Nodup) : (dropTimers id l).Nodup :=
  ((hn.erase _).erase _).erase _

theorem Core.lt {s} (h : Core s) {c} (hc : c ∈ s.mem) : c.id < s.next :=
  (h.acc.live (cnt_pos.2 ⟨c, hc, rfl⟩)).2.2

/-- Two structures of one allocation cannot be there. -/
theorem Core.sep {s} (h : Core s) {c d} (hc : c ∈ s.cbs) (hd : d ∈ s.out) : c.id ≠ d.id := by
  intro e
  have h1 := (h.acc.live (id := c.id) (cnt_pos.2 ⟨c, List.mem_append_left _ hc, rfl⟩)).1
  unfold St.mem at h1
  rw [cnt_append] at h1
  have h2 : 0 < cnt c.id s.cbs := cnt_pos.2 ⟨c, hc, rfl⟩
  have h3 : 0 < cnt c.id s.out := cnt_pos.2 ⟨d, hd, e.symm⟩
  omega

theorem Core.free {s id} (h : Core s) (hc : ∃ c ∈ s.cbs, c.id = id) :
    ∃ s', freeCb id s = .ok s' ∧ Core s' ∧ s'.out = s.out ∧ s'.trans = s.trans ∧ s'.nextT = s.nextT ∧ s'.next = s.next ∧
      s'.cbs = s.cbs.filter (fun x => x.id != id) := by
  obtain ⟨c, hc, hi⟩ := hc
  have hpos : 0 < cnt id s.mem := cnt_pos.2 ⟨c, List.mem_append_left _ hc, hi⟩
  have hany := any_pos.2 hpos
  have e : freeCb id s = .ok { s with
      cbs := s.cbs.filter (fun x => x.id != id), out := s.out.filter (fun x => x.id != id),
      timers := dropTimers id s.timers, log := s.log ++ [.freed id] } := by
    unfold freeCb; rw [if_pos hany]
  refine ⟨_, e, ⟨acc_closed.free h.acc e, nodup_dropTimers h.nodup, ?_, h.tnodup, h.trans⟩, ?_, rfl, rfl, rfl, rfl⟩
  · intro x hx
    obtain ⟨h1, h2⟩ := mem_dropTimers_iff h.nodup hx
    obtain ⟨d, hd, e⟩ := h.timers x h1
    exact ⟨d, List.mem_filter.2 ⟨hd, by simp; omega⟩, e⟩
  · show s.out.filter _ = s.out
    rw [List.filter_eq_self]
    intro d hd
    have := h.sep hc hd
    simp; omega

theorem Core.alloc {s} (h : Core s) (c many) : Core (alloc c many s) ∧ Grow s (alloc c many s) := by
  refine ⟨⟨acc_closed.alloc h.acc, h.nodup, ?_, h.tnodup, h.trans⟩, ⟨?_, rfl, [], by simp [Client.alloc]⟩⟩
  · intro x hx
    obtain ⟨d, hd, e⟩ := h.timers x hx
    exact ⟨d, List.mem_append_left _ hd, e⟩
  · intro d hd
    exact ⟨d, List.mem_append_left _ hd, rfl, rfl⟩

theorem Core.new {s} (h : Core s) (m e) : Core (newTrans m e false s) ∧ Grow s (newTrans m e false s) := by
  refine ⟨⟨acc_closed.frame h.acc rfl rfl rfl rfl, h.nodup, h.timers, ?_, ?_⟩, ⟨fun c hc => ⟨c, hc, rfl, rfl⟩, rfl, _, rfl⟩⟩
  · unfold newTrans
    rw [List.map_append, List.nodup_append]
    refine ⟨h.tnodup, by simp, ?_⟩
    intro a ha b hb
    simp at hb
    subst hb
    obtain ⟨x, hx, rfl⟩ := List.mem_map.1 ha
    have := (h.trans x hx).1
    omega
  · intro x hx
    rcases List.mem_append.1 hx with hx | hx
    · have := h.trans x hx
      exact ⟨Nat.lt_succ_of_lt this.1, this.2⟩
    · cases List.mem_singleton.1 hx
      exact ⟨Nat.lt_succ_self _, rfl⟩

theorem Core.clear {s} (h : Core s) (t) : Core (clearTrans t s) := by
  refine ⟨acc_closed.frame h.acc rfl rfl rfl rfl, h.nodup, h.timers, ?_, ?_⟩
  · exact h.tnodup.sublist (List.Sublist.map _ List.filter_sublist)
  · intro x hx
    exact h.trans x (List.mem_filter.1 hx).1

theorem clear_new {s} (h : Core s) (m e) : (clearTrans s.nextT (newTrans m e false s)).trans = s.trans := by
  unfold clearTrans newTrans
  dsimp only
  rw [List.filter_append, List.filter_eq_self.2]
  · simp
  · intro x hx
    have := (h.trans x hx).1
    simp; omega

/-- A transaction that is forgotten at once: it does not matter whether it is secured. -/
theorem clear_sec (t m e sec) (s : St) (ht : t = s.nextT) : clearTrans t (newTrans m e sec s) = clearTrans t (newTrans m e false s) := by
  subst ht
  unfold clearTrans newTrans
  simp

theorem doReq_sec {sec con : Bool} (h : (sec && con) = false) (c many timed how) (s : St) :
    doReq c many con timed sec how s = doReq c many con timed false how s := by
  cases con with
  | true => have : sec = false := by simpa using h
            rw [this]
  | false =>
    unfold doReq sentCb
    have : s.nextT = (alloc c many s).nextT := rfl
    cases how
    · rfl
    · rfl
    · dsimp only; rw [clear_sec _ _ _ sec _ this]
    · simp only [Bool.false_eq_true, if_false]; rw [clear_sec _ _ _ sec _ this]

theorem stopObserve_sec {sec con : Bool} (h : (sec && con) = false) (uri ep mid how) (s : St) :
    stopObserve uri ep mid con sec how s = stopObserve uri ep mid con false how s := by
  cases con with
  | true => have : sec = false := by simpa using h
            rw [this]
  | false =>
    unfold stopObserve sentCb
    split
    · rfl
    · rename_i d _
      cases how
      · rfl
      · rfl
      · have e := clear_sec s.nextT mid ep sec { s with cbs := upd d.id (fun x => { x with mid := mid, obs := some 1 }) s.cbs } rfl
        dsimp only; rw [e]
      · have e := clear_sec s.nextT mid ep sec { s with cbs := upd d.id (fun x => { x with mid := mid, obs := some 1 }) s.cbs } rfl
        simp only [Bool.false_eq_true, if_false]; rw [e]

theorem Core.disp {s} (h : Core s) (d) : Core { s with disp := d } :=
  ⟨acc_closed.frame h.acc rfl rfl rfl rfl, h.nodup, h.timers, h.tnodup, h.trans⟩

/-- A new request is on its way. -/
theorem Core.sent {s c many} (h : Core s) (m e) (con u tm) :
    Core (sentCb s.next s.nextT con u tm (newTrans m e false (Client.alloc c many s))) ∧
      Grow s (sentCb s.next s.nextT con u tm (newTrans m e false (Client.alloc c many s))) := by
  obtain ⟨ha, ga⟩ := h.alloc c many
  obtain ⟨hn, gn⟩ := ha.new m e
  have hfresh : ∀ k, (s.next, k) ∉ s.timers := by
    intro k hm
    obtain ⟨d, hd, e⟩ := h.timers _ hm
    have := h.lt (List.mem_append_left _ hd)
    simp at e; omega
  have hnew : ∃ d ∈ (Client.alloc c many s).cbs, d.id = s.next := ⟨_, List.mem_append_right _ List.mem_cons_self, rfl⟩
  have key : ∀ b : St, Core b → b.cbs = (Client.alloc c many s).cbs → b.timers = s.timers → Grow s b →
      Core { b with timers := b.timers ++ (if u then [(s.next, Kind.remove)] else []) ++ (if tm then [(s.next, Kind.timeout)] else []) } ∧
      Grow s { b with timers := b.timers ++ (if u then [(s.next, Kind.remove)] else []) ++ (if tm then [(s.next, Kind.timeout)] else []) } := by
    intro b hb hc ht hg
    refine ⟨⟨acc_closed.frame hb.acc rfl rfl rfl rfl, ?_, ?_, hb.tnodup, hb.trans⟩, ⟨hg.cbs, hg.out, hg.trans⟩⟩
    · show (b.timers ++ _ ++ _).Nodup
      rw [ht]
      have h1 := hfresh .remove
      have h2 := hfresh .timeout
      have h0 := h.nodup
      cases u <;> cases tm <;> simp [List.nodup_append, h0] <;> grind
    · intro x hx
      have hx : x ∈ b.timers ++ (if u then [(s.next, Kind.remove)] else []) ++ (if tm then [(s.next, Kind.timeout)] else []) := hx
      rw [ht] at hx
      have hx' : x ∈ s.timers ∨ x.1 = s.next := by
        revert hx
        cases u <;> cases tm <;> simp <;> grind
      show ∃ c ∈ b.cbs, _
      rw [hc]
      rcases hx' with hx' | hx'
      · obtain ⟨d, hd, e⟩ := h.timers x hx'
        exact ⟨d, List.mem_append_left _ hd, e⟩
      · rw [hx']; exact hnew
  unfold sentCb
  dsimp only
  cases con with
  | true => exact key _ hn rfl rfl (ga.trans' gn)
  | false =>
    refine key _ (hn.clear _) rfl rfl ⟨(ga.trans' gn).cbs, (ga.trans' gn).out, [], ?_⟩
    rw [List.append_nil]
    exact clear_new (s := Client.alloc c many s) ha m e

/-- A new request that comes to nothing. -/
theorem free_new {s} (h : Core s) (c many) (b : St) (hb : Core b) (h1 : b.cbs = (alloc c many s).cbs) (h2 : b.out = s.out)
    (h3 : b.trans = s.trans) : ∃ s', freeCb s.next b = .ok s' ∧ Core s' ∧ Grow s s' := by
  obtain ⟨s', e, hc, ho, ht, _, _, hcb⟩ := hb.free (id := s.next) (by rw [h1]; exact ⟨_, List.mem_append_right _ List.mem_cons_self, rfl⟩)
  refine ⟨s', e, hc, ?_, by rw [ho, h2], [], by rw [ht, h3, List.append_nil]⟩
  intro d hd
  have hl := h.lt (List.mem_append_left _ hd)
  refine ⟨d, ?_, rfl, rfl⟩
  rw [hcb, h1]
  refine List.mem_filter.2 ⟨List.mem_append_left _ hd, ?_⟩
  simp; omega

theorem doReq_tame {s} (h : Core s) (c many con timed how) :
    ∃ s', doReq c many con timed false how s = .ok s' ∧ Core s' ∧ Grow s s' := by
  obtain ⟨ha, ga⟩ := h.alloc c many
  obtain ⟨hn, gn⟩ := ha.new c.mid c.ep
  unfold doReq
  cases how with
  | noMem => exact ⟨s, rfl, h, .refl _⟩
  | noTrans => exact free_new h c many _ ha rfl rfl rfl
  | notSent =>
    obtain ⟨s', e, hc, hg⟩ := free_new h c many _ (hn.clear s.nextT) rfl rfl (clear_new (s := alloc c many s) ha _ _)
    exact ⟨{ s' with disp := none }, by dsimp only; rw [e]; rfl, hc.disp _, hg.cbs, hg.out, hg.trans⟩
  | sent =>
    obtain ⟨hc, hg⟩ := h.sent (c := c) (many := many) c.mid c.ep con (c.obs == none) timed
    exact ⟨_, rfl, hc.disp _, hg.cbs, hg.out, hg.trans⟩

theorem post_tame {s} (h : Core s) (r : Req) (how) (hr : (r.secured && r.con) = false) (hh : how ≠ .notSent) :
    ∃ s', post r how s = .ok s' ∧ Core s' ∧ Grow s s' := by
  obtain ⟨ha, ga⟩ := h.alloc (r.cb false none false false) false
  obtain ⟨hn, gn⟩ := ha.new r.mid r.ep
  unfold post
  cases how with
  | noMem => exact ⟨s, rfl, h, .refl _⟩
  | noTrans => exact free_new h (r.cb false none false false) false _ ha rfl rfl rfl
  | notSent => exact absurd rfl hh
  | sent =>
    obtain ⟨hc, hg⟩ := h.sent (c := r.cb false none false false) (many := false) r.mid r.ep r.con true r.timed
    refine ⟨_, ?_, hc.disp none, hg.cbs, hg.out, hg.trans⟩
    simp only [initPost, Out.bind, doPost]
    rw [if_neg]
    · unfold sentCb
      cases hcon : r.con with
      | true =>
        rw [hcon, Bool.and_true] at hr
        rw [hr]; rfl
      | false =>
        have e := clear_sec s.nextT r.mid r.ep r.secured (alloc (r.cb false none false false) false s) rfl
        have e' : ∀ d, clearTrans s.nextT { newTrans r.mid r.ep r.secured (alloc (r.cb false none false false) false s) with disp := d } =
          { clearTrans s.nextT (newTrans r.mid r.ep false (alloc (r.cb false none false false) false s)) with disp := d } := by
          intro d; rw [← e]; rfl
        simp only [Bool.false_eq_true, if_false]
        rw [e']
    · intro hq
      rcases hq with hq | hq
      · have := List.all_eq_true.1 hq _ (List.mem_append_left _ (List.mem_append_right _ List.mem_cons_self))
        simp at this
      · have := List.all_eq_true.1 hq _ (List.mem_append_right _ List.mem_cons_self)
        simp [alloc] at this

theorem ping_tame {s} (h : Core s) (token ep ok) : ∃ s', ping token ep ok s = .ok s' ∧ Core s' ∧ Grow s s' := by
  obtain ⟨ha, ga⟩ := h.alloc ⟨0, 0, token, ep, 0, false, true, none, false, false, false, false⟩ true
  unfold ping
  cases ok with
  | false => exact free_new h _ true _ ha rfl rfl rfl
  | true =>
    refine ⟨_, rfl, ⟨acc_closed.frame ha.acc rfl rfl rfl rfl, ?_, ?_, ha.tnodup, ha.trans⟩, ga.cbs, ga.out, ga.trans⟩
    · show (s.timers ++ [(s.next, Kind.ping)]).Nodup
      rw [List.nodup_append]
      refine ⟨h.nodup, by simp, ?_⟩
      intro a ha' b hb e
      simp at hb
      subst hb; subst e
      obtain ⟨d, hd, e⟩ := h.timers _ ha'
      have := h.lt (List.mem_append_left _ hd)
      simp at e; omega
    · intro x hx
      rcases List.mem_append.1 hx with hx | hx
      · obtain ⟨d, hd, e⟩ := h.timers x hx
        exact ⟨d, List.mem_append_left _ hd, e⟩
      · cases List.mem_singleton.1 hx
        exact ⟨_, List.mem_append_right _ List.mem_cons_self, rfl⟩

theorem Core.upd {s : St} (h : Core s) (id f) (hf : ∀ c : Cb, (f c).id = c.id ∧ (f c).token = c.token ∧ (f c).ep = c.ep) :
    Core { s with cbs := upd id f s.cbs } := by
  refine ⟨acc_closed.upd h.acc hf, h.nodup, ?_, h.tnodup, h.trans⟩
  intro x hx
  obtain ⟨d, hd, e⟩ := h.timers x hx
  refine ⟨_, List.mem_map.2 ⟨d, hd, rfl⟩, ?_⟩
  split
  · rw [(hf d).1]; exact e
  · exact e

theorem grow_upd {s : St} (id f) (hf : ∀ c : Cb, (f c).id = c.id ∧ (f c).busy = c.busy) :
    Grow s { s with cbs := upd id f s.cbs } := by
  refine ⟨fun c hc => ⟨_, List.mem_map.2 ⟨c, hc, rfl⟩, ?_⟩, rfl, [], by simp⟩
  split
  · exact hf c
  · exact ⟨rfl, rfl⟩

theorem stopObserve_tame {s} (h : Core s) (uri ep mid con how) (hh : how ≠ .notSent) :
    ∃ s', stopObserve uri ep mid con false how s = .ok s' ∧ Core s' ∧ Grow s s' := by
  unfold stopObserve
  split
  · exact ⟨s, rfl, h, .refl _⟩
  · rename_i c hc
    have hu := h.upd c.id (fun x => { x with mid := mid, obs := some 1 }) (fun _ => ⟨rfl, rfl, rfl⟩)
    have gu := grow_upd (s := s) c.id (fun x => { x with mid := mid, obs := some 1 }) (fun _ => ⟨rfl, rfl⟩)
    dsimp only
    cases how with
    | noMem => exact ⟨_, rfl, hu, gu⟩
    | noTrans => exact ⟨_, rfl, hu, gu⟩
    | notSent => exact absurd rfl hh
    | sent =>
      obtain ⟨hn, gn⟩ := hu.new mid ep
      refine ⟨_, rfl, ?_⟩
      cases con with
      | true =>
        refine ⟨⟨acc_closed.frame hn.acc rfl rfl rfl rfl, ?_, ?_, hn.tnodup, hn.trans⟩, (gu.trans' gn).cbs, (gu.trans' gn).out, (gu.trans' gn).trans⟩
        · have := hn.nodup
          simpa [sentCb] using this
        · have := hn.timers
          simpa [sentCb] using this
      | false =>
        have hcl := hn.clear s.nextT
        have ht := clear_new hu mid ep
        refine ⟨⟨acc_closed.frame hn.acc rfl rfl rfl rfl, ?_, ?_, hcl.tnodup, hcl.trans⟩, (gu.trans' gn).cbs, (gu.trans' gn).out, [], ?_⟩
        · have := hn.nodup
          simpa [sentCb, clearTrans] using this
        · have := hn.timers
          simpa [sentCb, clearTrans] using this
        · rw [List.append_nil]; exact ht

theorem stopMulticast_tame {s} (h : Core s) (cur) (hc : ∀ id, cur = some id → ∃ c ∈ s.mem, c.id = id) :
    ∃ s', stopMulticast cur s = .ok s' ∧ Core s' ∧ Grow s s' := by
  unfold stopMulticast
  cases cur with
  | none => exact ⟨s, rfl, h, .refl _⟩
  | some id =>
    obtain ⟨c, hm, hi⟩ := hc id rfl
    dsimp only
    rw [if_pos (any_pos.2 (cnt_pos.2 ⟨c, hm, hi⟩))]
    have hu := h.upd id (fun x => { x with stop := true }) (fun _ => ⟨rfl, rfl, rfl⟩)
    refine ⟨_, rfl, ⟨acc_closed.updOut hu.acc (fun _ => ⟨rfl, rfl, rfl⟩), hu.nodup, hu.timers, hu.tnodup, hu.trans⟩, ?_⟩
    have gu := grow_upd (s := s) id (fun x => { x with stop := true }) (fun _ => ⟨rfl, rfl⟩)
    refine ⟨gu.cbs, ?_, [], by simp⟩
    show (Client.upd id _ s.out).map _ = _
    unfold Client.upd
    rw [List.map_map]
    apply List.map_congr_left
    intro x _
    show (if x.id = id then _ else x).id = _
    split <;> rfl

theorem act_tame {s a} (h : Core s) (cur) (ht : a.tame = true) (hc : ∀ id, cur = some id → ∃ c ∈ s.mem, c.id = id) :
    ∃ s', act cur a s = .ok ([], s') ∧ Core s' ∧ Grow s s' := by
  have lift : ∀ {x : Out St}, (∃ s', x = .ok s' ∧ Core s' ∧ Grow s s') →
      ∃ s', (x.bind fun s => .ok (([] : List Frame), s)) = .ok ([], s') ∧ Core s' ∧ Grow s s' := by
    rintro x ⟨s', e, h1, h2⟩
    exact ⟨s', by rw [e]; rfl, h1, h2⟩
  cases a with
  | req form r how =>
    have hr : (r.secured && r.con) = false := Bool.not_eq_eq_eq_not.mp ht
    refine lift ?_
    unfold req
    cases form <;> dsimp only
    · rw [doReq_sec hr]; exact doReq_tame h ..
    · rw [doReq_sec hr]; exact doReq_tame h ..
    · rw [doReq_sec hr]; exact doReq_tame h ..
    · rw [doReq_sec (by simp)]; exact doReq_tame h ..
    · rw [doReq_sec (by simp)]; exact doReq_tame h ..
  | initPost r how => cases ht
  | doPost con timed how => cases ht
  | post r how =>
    have ht : (!(r.secured && r.con) && how != .notSent) = true := ht
    rw [Bool.and_eq_true] at ht
    exact lift (post_tame h r how (Bool.not_eq_eq_eq_not.mp ht.1) (by simpa using ht.2))
  | ping token ep ok => exact lift (ping_tame h token ep ok)
  | stopObserve uri ep mid con sec how =>
    have ht : (!(sec && con) && how != .notSent) = true := ht
    rw [Bool.and_eq_true] at ht
    refine lift ?_
    rw [stopObserve_sec (Bool.not_eq_eq_eq_not.mp ht.1)]
    exact stopObserve_tame h uri ep mid con how (by simpa using ht.2)
  | stopMulticast => exact lift (stopMulticast_tame h cur hc)
  | close ep => cases ht


/-- A valid position in the list of transactions. -/
def Ptr (s : St) (t : Option Nat) : Prop := ∀ n, t = some n → ∃ x ∈ s.trans, x.id = n

/-- What may be below a loop over requests. -/
inductive Below (s : St) : List Frame → Prop where
  | nil : Below s []
  | trans {ep t nxt len e code} : Ptr s (some t) → Ptr s nxt → nxt ≠ some t → Below s [.transAfter ep t nxt len, .loop (.ep e) code]
  | exhaust {t exh nxt len} : Ptr s (some t) → Ptr s nxt → nxt ≠ some t → Below s [.exhaustAfter t, .checkAfter exh nxt len]

/-- The stack below a running handler. -/
inductive Base (s : St) : List Frame → Prop where
  | nil : s.out = [] → Base s []
  | invoke {id obs sep pong ep} : s.out = [] → (∃ c ∈ s.cbs, c.id = id) → Base s [.afterInvoke id obs sep pong ep]
  | disc {id stop obs ep} : s.out = [] → (∃ c ∈ s.cbs, c.id = id) → Base s [.afterDiscovery id stop obs ep]
  | ping {id} : s.out = [] → (∃ c ∈ s.cbs, c.id = id) → Base s [.afterPing id]
  | notify {id} : s.out.map (·.id) = [id] → Base s [.afterNotify id]
  | notifyLoop {id p code k} : s.out.map (·.id) = [id] → Below s k → Base s (.afterNotify id :: .loop p code :: k)
  | loop {p code k} : s.out = [] → Below s k → Base s (.loop p code :: k)
  | transLoop {ep t e code} : s.out = [] → Ptr s t → Base s [.transLoop ep t, .loop (.ep e) code]
  | transAfter {ep t nxt len e code} : s.out = [] → Ptr s (some t) → Ptr s nxt → nxt ≠ some t →
    Base s [.transAfter ep t nxt len, .loop (.ep e) code]
  | exhaust {t exh nxt len} : s.out = [] → Ptr s (some t) → Ptr s nxt → nxt ≠ some t → Base s [.exhaust t, .checkAfter exh nxt len]
  | exhaustAfter {t exh nxt len} : s.out = [] → Ptr s (some t) → Ptr s nxt → nxt ≠ some t →
    Base s [.exhaustAfter t, .checkAfter exh nxt len]
  | checkLoop {exh t} : s.out = [] → Ptr s t → Base s [.checkLoop exh t]
  | checkAfter {exh nxt len} : s.out = [] → Ptr s nxt → Base s [.checkAfter exh nxt len]

/-- The request whose handler runs, as the rest of the stack shows. -/
def Owner (id : Nat) : List Frame → Prop
  | .afterInvoke j .. :: _ => j = id
  | .afterDiscovery j .. :: _ => j = id
  | .afterPing j :: _ => j = id
  | .afterNotify j :: _ => j = id
  | _ => False

inductive Shape (s : St) : List Frame → Prop where
  | base {k} : Base s k → Shape s k
  | handler {id code k} : Owner id k → Base s k → Shape s (.handler id code :: k)
  | acts {cur l k} : Owner cur k → (∀ a ∈ l, a.tame = true) → Base s k → Shape s (.acts cur l :: k)

theorem Ptr.grow {s s' t} (g : Grow s s') (h : Ptr s t) : Ptr s' t := by
  intro n e
  obtain ⟨x, hx, hi⟩ := h n e
  obtain ⟨ext, he⟩ := g.trans
  exact ⟨x, by rw [he]; exact List.mem_append_left _ hx, hi⟩

theorem Below.grow {s s' k} (g : Grow s s') (h : Below s k) : Below s' k := by
  cases h with
  | nil => exact .nil
  | trans a b c => exact .trans (a.grow g) (b.grow g) c
  | exhaust a b c => exact .exhaust (a.grow g) (b.grow g) c

theorem Grow.nil {s s'} (g : Grow s s') (h : s.out = []) : s'.out = [] := by
  have := g.out
  rw [h] at this
  simpa using this

theorem Grow.has {s s' id} (g : Grow s s') (h : ∃ c ∈ s.cbs, c.id = id) : ∃ c ∈ s'.cbs, c.id = id := by
  obtain ⟨c, hc, hi⟩ := h
  obtain ⟨d, hd, e, _⟩ := g.cbs c hc
  exact ⟨d, hd, by omega⟩

theorem Base.grow {s s' k} (g : Grow s s') (h : Base s k) : Base s' k := by
  cases h with
  | nil o => exact .nil (g.nil o)
  | invoke o h => exact .invoke (g.nil o) (g.has h)
  | disc o h => exact .disc (g.nil o) (g.has h)
  | ping o h => exact .ping (g.nil o) (g.has h)
  | notify o => exact .notify (by rw [g.out]; exact o)
  | notifyLoop o b => exact .notifyLoop (by rw [g.out]; exact o) (b.grow g)
  | loop o b => exact .loop (g.nil o) (b.grow g)
  | transLoop o p => exact .transLoop (g.nil o) (p.grow g)
  | transAfter o a b c => exact .transAfter (g.nil o) (a.grow g) (b.grow g) c
  | exhaust o a b c => exact .exhaust (g.nil o) (a.grow g) (b.grow g) c
  | exhaustAfter o a b c => exact .exhaustAfter (g.nil o) (a.grow g) (b.grow g) c
  | checkLoop o a => exact .checkLoop (g.nil o) (a.grow g)
  | checkAfter o a => exact .checkAfter (g.nil o) (a.grow g)

theorem Owner.mem {s id k} (h : Owner id k) (b : Base s k) : ∃ c ∈ s.mem, c.id = id := by
  cases b <;> try (exact False.elim h)
  case invoke o hx => obtain ⟨c, hc, e⟩ := hx; exact ⟨c, List.mem_append_left _ hc, by rw [e]; exact h⟩
  case disc o hx => obtain ⟨c, hc, e⟩ := hx; exact ⟨c, List.mem_append_left _ hc, by rw [e]; exact h⟩
  case ping o hx => obtain ⟨c, hc, e⟩ := hx; exact ⟨c, List.mem_append_left _ hc, by rw [e]; exact h⟩
  case notify j o =>
    have : j ∈ s.out.map (·.id) := by rw [o]; simp
    obtain ⟨c, hc, e⟩ := List.mem_map.1 this
    exact ⟨c, List.mem_append_right _ hc, by rw [e]; exact h⟩
  case notifyLoop j p code k o hb =>
    have : j ∈ s.out.map (·.id) := by rw [o]; simp
    obtain ⟨c, hc, e⟩ := List.mem_map.1 this
    exact ⟨c, List.mem_append_right _ hc, by rw [e]; exact h⟩

structure InvU (c : Conf) : Prop where
  core : Core c.st
  shape : Shape c.st c.stack

theorem ptr_head (s : St) : Ptr s (headT s) := by
  intro n e
  unfold headT at e
  cases h : s.trans with
  | nil => rw [h] at e; cases e
  | cons x l => rw [h] at e; cases e; exact ⟨x, by simp, rfl⟩

theorem nextOf_mem {t l n} (h : nextOf t l = some n) : ∃ x ∈ l, x.id = n := by
  induction l with
  | nil => cases h
  | cons x l ih =>
    unfold nextOf at h
    split at h
    · cases l with
      | nil => cases h
      | cons y l => cases h; exact ⟨y, by simp, rfl⟩
    · obtain ⟨y, hy, e⟩ := ih h
      exact ⟨y, List.mem_cons_of_mem _ hy, e⟩

theorem nextOf_ne {t l} (hn : (l.map (fun x : Tr => x.id)).Nodup) : nextOf t l ≠ some t := by
  induction l with
  | nil => intro h; cases h
  | cons x l ih =>
    intro h
    rw [List.map_cons, List.nodup_cons] at hn
    unfold nextOf at h
    split at h
    · rename_i e
      cases l with
      | nil => cases h
      | cons y l =>
        have hy : y.id = t := by simpa using h
        exact hn.1 (by rw [e, ← hy]; simp)
    · exact ih hn.2 h

theorem ptr_next {s : St} (t) : Ptr s (nextOf t s.trans) := fun _ e => nextOf_mem e

theorem Ptr.clear {s t n} (h : Ptr s n) (hne : n ≠ some t) : Ptr (clearTrans t s) n := by
  intro m e
  obtain ⟨x, hx, hi⟩ := h m e
  refine ⟨x, List.mem_filter.2 ⟨hx, ?_⟩, hi⟩
  have : ¬ m = t := fun q => hne (by rw [e, q])
  simp; omega

theorem find_ptr {s : St} {t} (h : Ptr s (some t)) : ∃ x, s.trans.find? (fun x => x.id == t) = some x ∧ x ∈ s.trans ∧ x.id = t := by
  obtain ⟨y, hy, e⟩ := h t rfl
  cases hf : s.trans.find? (fun x => x.id == t) with
  | none =>
    have := List.find?_eq_none.1 hf y hy
    simp [e] at this
  | some x =>
    refine ⟨x, rfl, List.mem_of_find?_eq_some hf, ?_⟩
    have := List.find?_some hf
    simpa using this

theorem Core.dropPing {s} (h : Core s) (pong c) : Core (dropPing pong c s) ∧ (dropPing pong c s).cbs = s.cbs ∧
    (dropPing pong c s).out = s.out ∧ (dropPing pong c s).trans = s.trans := by
  unfold Client.dropPing
  split
  · exact ⟨⟨acc_closed.frame h.acc rfl rfl rfl rfl, h.nodup.erase _, fun x hx => h.timers x (List.mem_of_mem_erase hx), h.tnodup, h.trans⟩, rfl, rfl, rfl⟩
  · exact ⟨h, rfl, rfl, rfl⟩

theorem Core.unref {s} (h : Core s) (id) : Core (unref id s) := h.upd id _ (fun _ => ⟨rfl, rfl, rfl⟩)

theorem setObserve_ok {s} (h : Core s) (c obs ep) (ho : s.out = []) : ∃ s', setObserve c obs ep s = .ok s' ∧ Core s' ∧ s'.out = [] := by
  have hu := h.upd c.id (fun x => { x with obs := obs }) (fun _ => ⟨rfl, rfl, rfl⟩)
  unfold setObserve
  dsimp only
  split
  · split
    · exact ⟨_, rfl, hu, ho⟩
    · rename_i d hd
      obtain ⟨s', e, hc, hout, _⟩ := hu.free (id := d.id) ⟨d, List.mem_of_find?_eq_some hd, rfl⟩
      exact ⟨s', e, hc, by rw [hout]; exact ho⟩
  · exact ⟨_, rfl, hu, ho⟩

theorem afterInvoke_ok {s} (h : Core s) (id obs sep pong ep) (ho : s.out = []) (hc : ∃ c ∈ s.cbs, c.id = id) :
    ∃ r, afterInvoke id obs sep pong ep s = .ok r ∧ Core r.2 ∧ Base r.2 r.1 := by
  obtain ⟨c0, hc0, hi0⟩ := hc
  unfold afterInvoke
  cases hl : s.look id with
  | none =>
    exfalso
    unfold St.look at hl
    have := List.find?_eq_none.1 hl c0 (List.mem_append_left _ hc0)
    simp [hi0] at this
  | some c =>
    obtain ⟨hd, e1, e2, e3⟩ := h.dropPing pong c
    have hm : c0 ∈ (Client.dropPing pong c s).cbs := by rw [e1]; exact hc0
    have ho' : (Client.dropPing pong c s).out = [] := by rw [e2]; exact ho
    dsimp only
    split
    · exact ⟨_, rfl, hd, .nil ho'⟩
    · split
      · split
        · split
          · exact ⟨_, rfl, hd.unref id, .loop ho' .nil⟩
          · exact ⟨_, rfl, hd.unref id, .nil ho'⟩
        · obtain ⟨s', e, hc', hout, _⟩ := hd.free (id := id) ⟨c0, hm, hi0⟩
          exact ⟨([], s'), by rw [e]; rfl, hc', .nil (by rw [hout]; exact ho')⟩
      · obtain ⟨s', e, hc', hout⟩ := setObserve_ok (hd.unref id) c obs ep ho'
        exact ⟨([], s'), by rw [e]; rfl, hc', .nil hout⟩

theorem Core.detach {s c d} (h : Core s) (hc : c ∈ s.cbs) (h1 : d.id = c.id) (h2 : d.token = c.token) (h3 : d.ep = c.ep) : Core (detach d s) := by
  refine ⟨acc_closed.detach h.acc hc h1 h2 h3, nodup_dropTimers h.nodup, ?_, h.tnodup, h.trans⟩
  intro x hx
  obtain ⟨h4, h5⟩ := mem_dropTimers_iff h.nodup hx
  obtain ⟨y, hy, e⟩ := h.timers x h4
  exact ⟨y, List.mem_filter.2 ⟨hy, by simp; omega⟩, e⟩

theorem afterNotify_ok {s id} (h : Core s) (ho : s.out.map (·.id) = [id]) :
    ∃ s', afterNotify id s = .ok ([], s') ∧ Core s' ∧ s'.out = [] ∧ s'.trans = s.trans := by
  unfold afterNotify
  have hm : id ∈ s.out.map (·.id) := by rw [ho]; simp
  obtain ⟨c0, hc0, hi0⟩ := List.mem_map.1 hm
  cases hf : s.out.find? (fun c => c.id == id) with
  | none =>
    have := List.find?_eq_none.1 hf c0 hc0
    simp [hi0] at this
  | some c =>
    obtain ⟨hd, e1, e2, e3⟩ := h.dropPing false c
    have hq : afterNotify id s = .ok ([], { dropPing false c s with out := s.out.filter (fun x => x.id != id), log := s.log ++ [.freed id] }) := by
      unfold afterNotify; rw [hf]
    refine ⟨_, rfl, ⟨acc_closed.afterNotify h.acc hq, hd.nodup, hd.timers, hd.tnodup, hd.trans⟩, ?_, e3⟩
    show s.out.filter _ = []
    rw [List.filter_eq_nil_iff]
    intro x hx
    have : x.id ∈ s.out.map (·.id) := List.mem_map.2 ⟨x, hx, rfl⟩
    rw [ho] at this
    simpa using this

theorem below_trans {s s' k} (e : s'.trans = s.trans) (h : Below s k) : Below s' k := by
  have hp : ∀ t, Ptr s t → Ptr s' t := by intro t h n q; rw [e]; exact h n q
  cases h with
  | nil => exact .nil
  | trans a b c => exact .trans (hp _ a) (hp _ b) c
  | exhaust a b c => exact .exhaust (hp _ a) (hp _ b) c

/-- What is below a loop is a stack by itself. -/
theorem Below.base {s k} (h : Below s k) (ho : s.out = []) : Base s k := by
  cases h with
  | nil => exact .nil ho
  | trans a b c => exact .transAfter ho a b c
  | exhaust a b c => exact .exhaustAfter ho a b c

theorem base_next {beh k s} (h : Core s) (hb : Base s k) : ∃ c', next beh ⟨k, s⟩ = .ok c' ∧ InvU c' := by
  cases hb with
  | nil o => exact ⟨_, rfl, h, .base (.nil o)⟩
  | invoke o hc =>
    rename_i id obs sep pong ep
    obtain ⟨r, e, h1, h2⟩ := afterInvoke_ok h id obs sep pong ep o hc
    refine ⟨⟨r.1 ++ [], r.2⟩, ?_, h1, .base (by rw [List.append_nil]; exact h2)⟩
    simp only [next]; rw [e]; rfl
  | disc o hc =>
    rename_i id stop obs ep
    simp only [next]
    cases hl : s.look id with
    | none =>
      exfalso
      obtain ⟨c0, hc0, hi0⟩ := hc
      unfold St.look at hl
      have := List.find?_eq_none.1 hl c0 (List.mem_append_left _ hc0)
      simp [hi0] at this
    | some d =>
      dsimp only
      split
      · exact ⟨_, rfl, h.unref id, .base (.loop o .nil)⟩
      · exact ⟨_, rfl, h, .base (.invoke o hc)⟩
  | ping o hc =>
    rename_i id
    obtain ⟨s', e, hc', hout, _⟩ := h.free hc
    refine ⟨⟨[], s'⟩, ?_, hc', .base (.nil (by rw [hout]; exact o))⟩
    simp only [next]; rw [e]; rfl
  | notify o =>
    obtain ⟨s', e, h1, h2, h3⟩ := afterNotify_ok h o
    refine ⟨⟨[] ++ [], s'⟩, ?_, h1, .base (.nil h2)⟩
    simp only [next]; rw [e]; rfl
  | notifyLoop o hb =>
    rename_i id p code k
    obtain ⟨s', e, h1, h2, h3⟩ := afterNotify_ok h o
    refine ⟨⟨[] ++ .loop p code :: k, s'⟩, ?_, h1, .base (.loop h2 (below_trans h3 hb))⟩
    simp only [next]; rw [e]; rfl
  | loop o hb =>
    rename_i p code k
    simp only [next]
    split
    · exact ⟨_, rfl, h, .base (hb.base o)⟩
    · rename_i d hd
      have hm := List.mem_of_find?_eq_some hd
      refine ⟨_, rfl, h.detach (d := { d with ref := true }) hm rfl rfl rfl, .handler rfl (.notifyLoop ?_ (below_trans (s := s) rfl hb))⟩
      show (_ :: s.out).map _ = _
      rw [o]; rfl
  | transLoop o hp =>
    rename_i ep t e code
    cases t with
    | none => exact ⟨_, rfl, h, .base (.loop o .nil)⟩
    | some t =>
      obtain ⟨x, hf, hx, hi⟩ := find_ptr hp
      simp only [next]
      rw [hf]
      dsimp only
      split
      · exact ⟨_, rfl, h, .base (.loop o (.trans hp (ptr_next t) (nextOf_ne h.tnodup)))⟩
      · exact ⟨_, rfl, h, .base (.transLoop o (ptr_next t))⟩
  | transAfter o hp hn hne =>
    rename_i ep t nxt len e code
    simp only [next]
    split
    · exact ⟨_, rfl, h, .base (.transLoop o (ptr_head s))⟩
    · split
      · rename_i hall
        exfalso
        obtain ⟨x, hx, hi⟩ := hp t rfl
        have := List.all_eq_true.1 hall x hx
        simp [hi] at this
      · exact ⟨_, rfl, h.clear t, .base (.transLoop o (hn.clear hne))⟩
  | exhaust o hp hn hne =>
    rename_i t exh nxt len
    obtain ⟨x, hf, hx, hi⟩ := find_ptr hp
    simp only [next]
    rw [hf]
    exact ⟨_, rfl, h, .base (.loop o (.exhaust hp hn hne))⟩
  | exhaustAfter o hp hn hne =>
    rename_i t exh nxt len
    obtain ⟨x, hf, hx, hi⟩ := find_ptr hp
    simp only [next]
    rw [hf]
    dsimp only
    rw [if_neg (by rw [(h.trans x hx).2]; simp)]
    exact ⟨_, rfl, h.clear t, .base (.checkAfter o (hn.clear hne))⟩
  | checkLoop o hp =>
    rename_i exh t
    cases t with
    | none => exact ⟨_, rfl, h, .base (.nil o)⟩
    | some t =>
      obtain ⟨x, hf, hx, hi⟩ := find_ptr hp
      simp only [next]
      rw [hf]
      dsimp only
      split
      · exact ⟨_, rfl, h, .base (.exhaust o hp (ptr_next t) (nextOf_ne h.tnodup))⟩
      · exact ⟨_, rfl, h, .base (.checkLoop o (ptr_next t))⟩
  | checkAfter o hn =>
    simp only [next]
    split
    · exact ⟨_, rfl, h, .base (.checkLoop o (ptr_head s))⟩
    · exact ⟨_, rfl, h, .base (.checkLoop o hn)⟩

theorem InvU.next {beh c} (hb : ∀ n, ∀ a ∈ beh n, a.tame = true) (h : InvU c) : ∃ c', next beh c = .ok c' ∧ InvU c' := by
  obtain ⟨k, s⟩ := c
  obtain ⟨hc, hs⟩ := h
  cases hs with
  | base b => exact base_next hc b
  | handler own b =>
    rename_i id code k
    obtain ⟨c, hm, hi⟩ := own.mem b
    have hp : 0 < cnt id s.mem := cnt_pos.2 ⟨c, hm, hi⟩
    simp only [Client.next]
    rw [if_pos (any_pos.2 hp)]
    refine ⟨_, rfl, ⟨acc_closed.frame (acc_closed.call (id := id) (code := code) hc.acc hp) rfl rfl rfl rfl, hc.nodup, hc.timers, hc.tnodup, hc.trans⟩, ?_⟩
    refine .acts own (hb _) (b.grow ?_)
    exact ⟨fun c h => ⟨c, h, rfl, rfl⟩, rfl, [], by simp⟩
  | acts own ht b =>
    rename_i cur l k
    cases l with
    | nil => exact ⟨_, rfl, hc, .base b⟩
    | cons a l =>
      obtain ⟨s', e, h1, g⟩ := act_tame hc (some cur) (ht a (by simp)) (fun id e => by cases e; exact own.mem b)
      refine ⟨⟨[] ++ .acts cur l :: k, s'⟩, ?_, h1, .acts own (fun a ha => ht a (by simp [ha])) (b.grow g)⟩
      simp only [Client.next]
      rw [e]; rfl

theorem stopObserve_top {s} (h : Core s) (ho : s.out = []) (uri ep mid con how) :
    ∃ s', stopObserve uri ep mid con false how s = .ok s' ∧ Core s' ∧ s'.out = [] := by
  by_cases hh : how = .notSent
  · subst hh
    unfold stopObserve
    split
    · exact ⟨s, rfl, h, ho⟩
    · rename_i c hc
      have hu := h.upd c.id (fun x => { x with mid := mid, obs := some 1 }) (fun _ => ⟨rfl, rfl, rfl⟩)
      have hn := (hu.new mid ep).1.clear s.nextT
      have hm := List.mem_of_find?_eq_some hc
      obtain ⟨s', e, hc', hout, _⟩ := hn.free (id := c.id)
        ⟨_, List.mem_map.2 ⟨c, hm, rfl⟩, by rw [if_pos rfl]⟩
      refine ⟨{ s' with disp := none }, ?_, hc'.disp _, by show s'.out = []; rw [hout]; exact ho⟩
      dsimp only
      rw [e]; rfl
  · obtain ⟨s', e, hc, g⟩ := stopObserve_tame h uri ep mid con how hh
    exact ⟨s', e, hc, g.nil ho⟩

theorem InvU.start {s o} (h : InvU ⟨[], s⟩) (ht : o.tame = true) : ∃ c, start o s = .ok c ∧ InvU c := by
  obtain ⟨hc, hs⟩ := h
  have ho : s.out = [] := by
    cases hs with
    | base b => cases b; assumption
  cases o with
  | act a =>
    have done : ∀ {x : Out (List Frame × St)} {s'}, x = .ok ([], s') → Core s' → s'.out = [] →
        ∃ c, (x.bind fun r => .ok ⟨r.1, r.2⟩) = .ok c ∧ InvU c := by
      intro x s' e h1 h2
      exact ⟨⟨[], s'⟩, by rw [e]; rfl, h1, .base (.nil h2)⟩
    have gen : a.tame = true → ∃ c, Client.start (.act a) s = .ok c ∧ InvU c := by
      intro ha
      obtain ⟨s', e, h1, g⟩ := act_tame hc none ha (fun id e => by cases e)
      exact done e h1 (g.nil ho)
    cases a with
    | stopObserve uri ep mid con sec how =>
      have ht : (!(sec && con)) = true := ht
      obtain ⟨s', e, h1, h2⟩ := stopObserve_top hc ho uri ep mid con how
      refine done (s' := s') ?_ h1 h2
      show (Out.bind _ _) = _
      rw [stopObserve_sec (Bool.not_eq_eq_eq_not.mp ht), e]; rfl
    | close ep =>
      simp only [Client.start, act, Out.bind]
      refine ⟨_, rfl, ?_⟩
      unfold close
      split
      · refine ⟨⟨acc_closed.frame hc.acc rfl rfl rfl rfl, hc.nodup, hc.timers, hc.tnodup, hc.trans⟩, .base (.transLoop ho ?_)⟩
        exact ptr_head s
      · exact ⟨hc, .base (.nil ho)⟩
    | req form r how => exact gen ht
    | initPost r how => exact gen ht
    | doPost con timed how => exact gen ht
    | post r how => exact gen ht
    | ping token ep ok => exact gen ht
    | stopMulticast => exact gen ht
  | resp mid token ep obs body pong old stop =>
    have hcm : Core (clearMid mid s) := by
      unfold clearMid
      split
      · exact hc
      · exact hc.clear _
    have hom : (clearMid mid s).out = [] := by rw [(clearMid_same mid s).2.1]; exact ho
    simp only [Client.start]
    split
    · exact ⟨_, rfl, hcm, .base (.nil hom)⟩
    · rename_i d hd
      have hdm : d ∈ (clearMid mid s).cbs := by rw [(clearMid_same mid s).1]; exact List.mem_of_find?_eq_some hd
      generalize clearMid mid s = s at *
      refine ⟨_, rfl, ?_⟩
      have hst := respond_st d ep obs body pong old stop s
      have hu := hcm.upd d.id (fun x => { x with ref := true }) (fun _ => ⟨rfl, rfl, rfl⟩)
      have hacc : Acc (respond d ep obs body pong old stop s).st := by
        rw [hst]
        by_cases hn : obs = none
        · rw [if_pos hn]; exact acc_closed.frame hu.acc rfl rfl rfl (List.append_nil _)
        · rw [if_neg hn]; exact acc_closed.observed (id := d.id) hu.acc
      have hcore : Core (respond d ep obs body pong old stop s).st := by
        refine ⟨hacc, ?_, ?_, ?_, ?_⟩ <;> rw [hst]
        · exact hu.nodup
        · exact hu.timers
        · exact hu.tnodup
        · exact hu.trans
      have hout : (respond d ep obs body pong old stop s).st.out = [] := by rw [hst]; exact hom
      have hin : ∃ c ∈ (respond d ep obs body pong old stop s).st.cbs, c.id = d.id := by
        rw [hst]
        exact ⟨_, List.mem_map.2 ⟨d, hdm, rfl⟩, by rw [if_pos rfl]⟩
      refine ⟨hcore, ?_⟩
      rcases respond_stack d ep obs body pong old stop s with e | ⟨sep, e⟩ | ⟨_, e⟩ | ⟨_, e⟩ | ⟨_, e⟩ <;> rw [e]
      · exact .base (.nil hout)
      · exact .base (.invoke hout hin)
      · exact .base (.disc hout hin)
      · exact .handler rfl (.disc hout hin)
      · exact .handler rfl (.invoke hout hin)
  | fire id kind =>
    simp only [Client.start]
    split
    · rename_i htm
      obtain ⟨c, hcm, hi⟩ := hc.timers _ htm
      cases hf : s.cbs.find? (fun c => c.id == id) with
      | none =>
        have := List.find?_eq_none.1 hf c hcm
        simp at this hi
        exact absurd hi this
      | some d =>
        obtain ⟨hdm, hdi, _⟩ := find_cnt hf
        have h1 : Core { s with timers := s.timers.erase (id, kind) } :=
          ⟨acc_closed.frame hc.acc rfl rfl rfl rfl, hc.nodup.erase _, fun x hx => hc.timers x (List.mem_of_mem_erase hx), hc.tnodup, hc.trans⟩
        dsimp only
        unfold fire
        cases kind with
        | remove =>
          obtain ⟨s', e, hc', hout, _⟩ := h1.free (id := d.id) ⟨d, hdm, rfl⟩
          refine ⟨⟨[], s'⟩, ?_, hc', .base (.nil (by rw [hout]; exact ho))⟩
          dsimp only
          rw [e]; rfl
        | timeout =>
          refine ⟨_, rfl, h1.detach hdm rfl rfl rfl, .handler rfl (.notify ?_)⟩
          show (_ :: s.out).map _ = _
          rw [ho]; rfl
        | ping => exact ⟨_, rfl, h1, .handler rfl (.ping ho ⟨d, hdm, rfl⟩)⟩
    · exact ⟨_, rfl, hc, hs⟩
  | check exh => exact ⟨_, rfl, hc, .base (.checkLoop ho (ptr_head s))⟩
  | connect ep =>
    exact ⟨_, rfl, ⟨acc_closed.frame hc.acc rfl rfl rfl rfl, hc.nodup, hc.timers, hc.tnodup, hc.trans⟩, .base (.nil ho)⟩

theorem invU_init : InvU ⟨[], init⟩ :=
  ⟨⟨acc_init, List.nodup_nil, fun _ h => (by cases h), List.nodup_nil, fun _ h => (by cases h)⟩, .base (.nil rfl)⟩

/-- Reachable with operations of this kind only. -/
inductive ReachT (beh : Nat → List Act) : Conf → Prop where
  | init : ReachT beh ⟨[], init⟩
  | op {s o c} : ReachT beh ⟨[], s⟩ → o.tame = true → start o s = .ok c → ReachT beh c
  | step {c c'} : ReachT beh c → next beh c = .ok c' → ReachT beh c'

theorem ReachT.reach {beh c} (h : ReachT beh c) : Reach beh c := by
  induction h with
  | init => exact .init
  | op _ _ hs ih => exact .op ih hs
  | step _ hn ih => exact .step ih hn

theorem invU_reach {beh c} (hb : ∀ n, ∀ a ∈ beh n, a.tame = true) (h : ReachT beh c) : InvU c := by
  induction h with
  | init => exact invU_init
  | op _ ht hs ih =>
    obtain ⟨c', e, h1⟩ := ih.start ht
    rw [hs] at e; cases e; exact h1
  | step _ hn ih =>
    obtain ⟨c', e, h1⟩ := ih.next hb
    rw [hn] at e; cases e; exact h1

end Verif.Client
