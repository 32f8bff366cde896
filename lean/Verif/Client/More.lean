import Verif.Client.Safe
/-! Tokens, closing a session, and the removal of requests. -/
namespace Verif.Client
open Verif

/-! ### Allocation events and tokens -/

theorem allocs_closed : Closed (fun s => ∀ id, (∃ t e, Ev.alloc id t e ∈ s.log) ↔ id < s.next) where
  frame := fun h _ _ h3 h4 id => by rw [h3, h4]; exact h id
  upd := fun h _ => h
  updOut := fun h _ => h
  detach := fun h _ _ _ _ => h
  free := by
    intro s i s' h hf id
    obtain ⟨_, rfl⟩ := freeCb_ok hf
    rw [← h id]; simp
  drop := by
    intro s i h _ id
    rw [← h id]; simp
  alloc := by
    intro s c many h id
    have := h id
    show (∃ t e, Ev.alloc id t e ∈ s.log ++ _) ↔ id < s.next + 1
    constructor
    · rintro ⟨t, e, hm⟩
      rcases List.mem_append.1 hm with hm | hm
      · have := this.1 ⟨t, e, hm⟩; omega
      · cases many <;> simp at hm <;> omega
    · intro hl
      by_cases hi : id < s.next
      · obtain ⟨t, e, hm⟩ := this.2 hi
        exact ⟨t, e, List.mem_append_left _ hm⟩
      · have : id = s.next := by omega
        subst this
        exact ⟨c.token, c.ep, List.mem_append_right _ (by simp)⟩
  call := by
    intro s i code h _ id
    rw [← h id]; simp
  observed := by
    intro s i h id
    rw [← h id]; simp

theorem allocs_reach {beh c} (h : Reach beh c) (id) : (∃ t e, Ev.alloc id t e ∈ c.st.log) ↔ id < c.st.next :=
  allocs_closed.reach (fun _ => ⟨fun ⟨_, _, h⟩ => (by cases h), fun h => absurd h (Nat.not_lt_zero _)⟩) h id

/-- The structures have the token and endpoint they were allocated with. -/
def Tok (s : St) : Prop := ∀ c ∈ s.mem, Ev.alloc c.id c.token c.ep ∈ s.log

theorem mem_upd3 {i f l} (hf : ∀ c : Cb, (f c).id = c.id ∧ (f c).token = c.token ∧ (f c).ep = c.ep) {x} (h : x ∈ upd i f l) :
    ∃ y ∈ l, y.id = x.id ∧ y.token = x.token ∧ y.ep = x.ep := by
  obtain ⟨y, hy, e⟩ := List.mem_map.1 h
  refine ⟨y, hy, ?_⟩
  split at e
  · subst e; exact ⟨(hf y).1.symm, (hf y).2.1.symm, (hf y).2.2.symm⟩
  · subst e; exact ⟨rfl, rfl, rfl⟩

theorem tok_closed : Closed Tok where
  frame := fun h h1 h2 _ h4 => by unfold Tok St.mem at *; rw [h1, h2, h4]; exact h
  upd := by
    intro s i f h hf c hc
    rcases List.mem_append.1 hc with hc | hc
    · obtain ⟨y, hy, e1, e2, e3⟩ := mem_upd3 hf hc
      rw [← e1, ← e2, ← e3]; exact h y (List.mem_append_left _ hy)
    · exact h c (List.mem_append_right _ hc)
  updOut := by
    intro s i f h hf c hc
    rcases List.mem_append.1 hc with hc | hc
    · exact h c (List.mem_append_left _ hc)
    · obtain ⟨y, hy, e1, e2, e3⟩ := mem_upd3 hf hc
      rw [← e1, ← e2, ← e3]; exact h y (List.mem_append_right _ hy)
  detach := by
    intro s c c' h hc h1 h2 h3 x hx
    rcases detach_mem hx with rfl | hx
    · rw [h1, h2, h3]; exact h c (List.mem_append_left _ hc)
    · exact h x hx
  free := by
    intro s i s' h hf
    obtain ⟨_, rfl⟩ := freeCb_ok hf
    intro x hx
    refine List.mem_append_left _ (h x ?_)
    rcases List.mem_append.1 hx with hx | hx
    · exact List.mem_append_left _ (List.mem_filter.1 hx).1
    · exact List.mem_append_right _ (List.mem_filter.1 hx).1
  drop := by
    intro s i h _ x hx
    refine List.mem_append_left _ (h x ?_)
    rcases List.mem_append.1 hx with hx | hx
    · exact List.mem_append_left _ hx
    · exact List.mem_append_right _ (List.mem_filter.1 hx).1
  alloc := by
    intro s c many h x hx
    rcases List.mem_append.1 hx with hx | hx
    · rcases List.mem_append.1 hx with hx | hx
      · exact List.mem_append_left _ (h x (List.mem_append_left _ hx))
      · cases List.mem_singleton.1 hx
        exact List.mem_append_right _ (by simp)
    · exact List.mem_append_left _ (h x (List.mem_append_right _ hx))
  call := fun h _ x hx => List.mem_append_left _ (h x hx)
  observed := fun h x hx => List.mem_append_left _ (h x hx)

theorem tok_reach {beh c} (h : Reach beh c) : Tok c.st := tok_closed.reach (fun _ h => (by cases h)) h

/-- The frames that can lead to calls with a response. -/
def FrameTok (l : List Ev) : Frame → Prop
  | .handler id (.response tok _) => ∃ e, Ev.alloc id tok e ∈ l
  | .loop _ (.response ..) => False
  | _ => True

structure InvR (c : Conf) : Prop where
  frames : ∀ f ∈ c.stack, FrameTok c.st.log f
  log : ∀ id tok ep, Ev.called id (.response tok ep) ∈ c.st.log → ∃ e, Ev.alloc id tok e ∈ c.st.log

theorem FrameTok.mono {l m f} (h : FrameTok l f) : FrameTok (l ++ m) f := by
  unfold FrameTok at *
  split
  · obtain ⟨e, he⟩ := h; exact ⟨e, List.mem_append_left _ he⟩
  · exact h
  · trivial

theorem Evo.invR {k s s'} (e : Evo s s') (h : InvR ⟨k, s⟩) : InvR ⟨k, s'⟩ := by
  obtain ⟨ext, hl, hc⟩ := e.log
  refine ⟨fun f hf => ?_, fun id tok ep hm => ?_⟩
  · show FrameTok s'.log f
    rw [hl]; exact (h.frames f hf).mono
  · have hm : _ ∈ s'.log := hm
    show ∃ e, _ ∈ s'.log
    rw [hl] at hm ⊢
    rcases List.mem_append.1 hm with hm | hm
    · obtain ⟨e, he⟩ := h.log id tok ep hm
      exact ⟨e, List.mem_append_left _ he⟩
    · exact absurd hm (hc _ _)

theorem InvR.frames' {k k' s} (h : InvR ⟨k, s⟩) (hk : ∀ f ∈ k', f ∈ k ∨ FrameTok s.log f) : InvR ⟨k', s⟩ :=
  ⟨fun f hf => (hk f hf).elim (h.frames f) id, h.log⟩

theorem close_tok (ep s l) : ∀ f ∈ (close ep s).1, FrameTok l f := by
  unfold close
  split
  · intro f hf
    simp at hf
    rcases hf with rfl | rfl <;> trivial
  · intro f hf; cases hf

theorem act_tok {cur a s r} (h : act cur a s = .ok r) (l) : ∀ f ∈ r.1, FrameTok l f := by
  cases a
  case close ep => cases h; exact close_tok ep s l
  all_goals
    obtain ⟨s1, h1, h2⟩ := Out.bind_ok h
    cases h2
    intro f hf; cases hf

theorem evo_unref_log (id s) : (unref id s).log = s.log := rfl

theorem InvR.state {k s s'} (h : InvR ⟨k, s⟩) (e : s'.log = s.log) : InvR ⟨k, s'⟩ :=
  ⟨fun f hf => by show FrameTok s'.log f; rw [e]; exact h.frames f hf,
   fun id tok ep hm => by
    have hm : _ ∈ s'.log := hm
    show ∃ e, _ ∈ s'.log
    rw [e] at hm ⊢; exact h.log id tok ep hm⟩

theorem afterInvoke_evo {id obs sep pong ep s r} (h : afterInvoke id obs sep pong ep s = .ok r) :
    (∃ ext, r.2.log = s.log ++ ext ∧ ∀ id code, Ev.called id code ∉ ext) ∧ (∀ l, ∀ f ∈ r.1, FrameTok l f) := by
  unfold afterInvoke at h
  split at h
  · split at h
    · cases h; exact ⟨⟨[], by simp, by simp⟩, fun l f hf => (by cases hf)⟩
    · cases h
  · rename_i c _
    have hd : (dropPing pong c s).log = s.log := (dropPing_same pong c s).2.2.2
    dsimp only at h
    split at h
    · cases h; exact ⟨⟨[], by simp [hd], by simp⟩, fun l f hf => (by cases hf)⟩
    · split at h
      · split at h
        · split at h
          · cases h
            refine ⟨⟨[], by simp [unref, hd], by simp⟩, fun l f hf => ?_⟩
            simp at hf; subst hf; trivial
          · cases h; exact ⟨⟨[], by simp [unref, hd], by simp⟩, fun l f hf => (by cases hf)⟩
        · obtain ⟨s1, h1, h2⟩ := Out.bind_ok h
          cases h2
          obtain ⟨ext, e1, e2⟩ := (evo_free h1).log
          exact ⟨⟨ext, by rw [e1, hd], e2⟩, fun l f hf => (by cases hf)⟩
      · obtain ⟨s1, h1, h2⟩ := Out.bind_ok h
        cases h2
        obtain ⟨ext, e1, e2⟩ := (evo_setObserve h1).log
        exact ⟨⟨ext, by rw [e1, evo_unref_log, hd], e2⟩, fun l f hf => (by cases hf)⟩

theorem InvR.ext {k s s'} (h : InvR ⟨k, s⟩) (e : ∃ ext, s'.log = s.log ++ ext ∧ ∀ id code, Ev.called id code ∉ ext) : InvR ⟨k, s'⟩ := by
  obtain ⟨ext, hl, hc⟩ := e
  refine ⟨fun f hf => ?_, fun id tok ep hm => ?_⟩
  · show FrameTok s'.log f
    rw [hl]; exact (h.frames f hf).mono
  · have hm : _ ∈ s'.log := hm
    show ∃ e, _ ∈ s'.log
    rw [hl] at hm ⊢
    rcases List.mem_append.1 hm with hm | hm
    · obtain ⟨e, he⟩ := h.log id tok ep hm
      exact ⟨e, List.mem_append_left _ he⟩
    · exact absurd hm (hc _ _)

theorem InvR.tail {f k s} (h : InvR ⟨f :: k, s⟩) : InvR ⟨k, s⟩ :=
  h.frames' (fun g hg => .inl (List.mem_cons_of_mem _ hg))

theorem InvR.cons {f k s} (h : InvR ⟨k, s⟩) (hf : FrameTok s.log f) : InvR ⟨f :: k, s⟩ :=
  h.frames' (fun g hg => by
    rcases List.mem_cons.1 hg with rfl | hg
    · exact .inr hf
    · exact .inl hg)

theorem InvR.app {fs k s} (h : InvR ⟨k, s⟩) (hf : ∀ f ∈ fs, FrameTok s.log f) : InvR ⟨fs ++ k, s⟩ :=
  h.frames' (fun g hg => by
    rcases List.mem_append.1 hg with hg | hg
    · exact .inr (hf g hg)
    · exact .inl hg)

theorem InvR.next {beh c c'} (h : InvR c) (hn : next beh c = .ok c') : InvR c' := by
  obtain ⟨k, s⟩ := c
  unfold Client.next at hn
  split at hn
  · cases hn; exact h
  · rename_i e
    cases e; cases hn
    exact h.tail
  · rename_i cur a l k' e
    cases e
    obtain ⟨r, h1, h2⟩ := Out.bind_ok hn
    cases h2
    exact ((h.tail.ext (evo_act h1).1.log).cons (by exact trivial)).app (act_tok h1 _)
  · rename_i id code k' e
    cases e
    split at hn
    · cases hn
      refine InvR.cons ⟨fun f hf => (h.frames f (List.mem_cons_of_mem _ hf)).mono, fun i tok ep hm => ?_⟩ (by exact trivial)
      rcases List.mem_append.1 hm with hm | hm
      · obtain ⟨e, he⟩ := h.log i tok ep hm
        exact ⟨e, List.mem_append_left _ he⟩
      · cases List.mem_singleton.1 hm
        obtain ⟨e, he⟩ := h.frames _ List.mem_cons_self
        exact ⟨e, List.mem_append_left _ he⟩
    · cases hn
  · rename_i id k' e
    cases e
    obtain ⟨r, h1, h2⟩ := Out.bind_ok hn
    cases h2
    rw [(evo_afterNotify h1).2]
    exact h.tail.ext (evo_afterNotify h1).1.log
  · rename_i id stop obs ep k' e
    cases e
    split at hn
    · split at hn
      · cases hn
      · cases hn; exact h.tail.cons (by exact trivial)
    · split at hn
      · cases hn; exact (h.tail.state (s' := unref id s) rfl).cons (by exact trivial)
      · cases hn; exact h.tail.cons (by exact trivial)
  · rename_i id obs sep pong ep k' e
    cases e
    obtain ⟨r, h1, h2⟩ := Out.bind_ok hn
    cases h2
    have := afterInvoke_evo h1
    exact (h.tail.ext this.1).app (this.2 _)
  · rename_i id k' e
    cases e
    obtain ⟨r, h1, h2⟩ := Out.bind_ok hn
    cases h2
    exact h.tail.ext (evo_free h1).log
  · rename_i p code k' e
    cases e
    split at hn
    · cases hn; exact h.tail
    · rename_i d hd
      cases hn
      have hl := h.frames _ List.mem_cons_self
      have hs : InvR ⟨.loop p code :: k', detach { d with ref := true } s⟩ := h.state rfl
      refine InvR.cons (InvR.cons (f := .afterNotify d.id) hs (by exact trivial)) ?_
      cases code <;> trivial
  · rename_i e
    cases e; cases hn; exact h.tail
  · rename_i e
    cases e
    split at hn
    · cases hn
    · split at hn
      · cases hn; exact (h.tail.cons (by exact trivial)).cons (by exact trivial)
      · cases hn; exact h.tail.cons (by exact trivial)
  · rename_i e
    cases e
    split at hn
    · cases hn; exact h.tail.cons (by exact trivial)
    · split at hn
      · cases hn
      · cases hn
        exact InvR.cons (f := .transLoop _ _) (h.tail.state rfl) (by exact trivial)
  · rename_i e
    cases e
    split at hn
    · cases hn
    · cases hn; exact (h.tail.cons (by exact trivial)).cons (by exact trivial)
  · rename_i e
    cases e
    split at hn
    · cases hn
    · rename_i x _
      split at hn
      · cases hn
        exact (h.tail.ext (evo_close x.ep s).log).app (close_tok x.ep s _)
      · cases hn
        exact h.tail.state rfl
  · rename_i e
    cases e; cases hn; exact h.tail
  · rename_i e
    cases e
    split at hn
    · cases hn
    · split at hn
      · cases hn; exact (h.tail.cons (by exact trivial)).cons (by exact trivial)
      · cases hn; exact h.tail.cons (by exact trivial)
  · rename_i e
    cases e
    split at hn
    · cases hn; exact h.tail.cons (by exact trivial)
    · cases hn; exact h.tail.cons (by exact trivial)

theorem InvR.start {o s c} (ht : Tok s) (h : InvR ⟨[], s⟩) (hs : start o s = .ok c) : InvR c := by
  unfold Client.start at hs
  split at hs
  · obtain ⟨r, h1, h2⟩ := Out.bind_ok hs
    cases h2
    have := (h.ext (evo_act h1).1.log).app (act_tok h1 r.2.log)
    rw [List.append_nil] at this
    exact this
  · split at hs
    · rename_i mid _ _ _ _ _ _ _ _ _
      cases hs
      exact h.state (clearMid_same mid s).2.2.2.2
    · rename_i mid _ ep obs body pong old stop _ d hd
      cases hs
      have hal : Ev.alloc d.id d.token d.ep ∈ s.log := ht d (List.mem_append_left _ (List.mem_of_find?_eq_some hd))
      have hlog : (respond d ep obs body pong old stop (clearMid mid s)).st.log = s.log ++ (if obs = none then [] else [.observed d.id]) := by
        rw [respond_st, (clearMid_same mid s).2.2.2.2]
      have h1 : InvR ⟨[], (respond d ep obs body pong old stop (clearMid mid s)).st⟩ :=
        h.ext ⟨_, hlog, by intro id code; split <;> simp⟩
      have hf : ∀ q, FrameTok (respond d ep obs body pong old stop (clearMid mid s)).st.log (.handler d.id (.response d.token q)) := by
        intro q
        rw [hlog]
        exact ⟨d.ep, List.mem_append_left _ hal⟩
      have hst : respond d ep obs body pong old stop (clearMid mid s) =
          ⟨(respond d ep obs body pong old stop (clearMid mid s)).stack, (respond d ep obs body pong old stop (clearMid mid s)).st⟩ := rfl
      rw [hst]
      rcases respond_stack d ep obs body pong old stop (clearMid mid s) with e | ⟨sep, e⟩ | ⟨_, e⟩ | ⟨_, e⟩ | ⟨_, e⟩ <;> rw [e]
      · exact h1
      · exact h1.cons (by exact trivial)
      · exact h1.cons (by exact trivial)
      · exact (h1.cons (by exact trivial)).cons (hf _)
      · exact (h1.cons (by exact trivial)).cons (hf _)
  · split at hs
    · split at hs
      · cases hs
      · rename_i id kind _ _ d hd
        unfold fire at hs
        have h1 : InvR ⟨[], { s with timers := s.timers.erase (id, kind) }⟩ := h.state rfl
        cases kind with
        | remove =>
          obtain ⟨r, h2, h3⟩ := Out.bind_ok hs
          cases h3
          exact h1.ext (evo_free h2).log
        | timeout =>
          cases hs
          have hs : InvR ⟨[], detach d { s with timers := s.timers.erase (id, .timeout) }⟩ := h1.state rfl
          exact InvR.cons (f := .handler _ _) (InvR.cons (f := .afterNotify _) hs (by exact trivial)) (by exact trivial)
        | ping => cases hs; exact (h1.cons (by exact trivial)).cons (by exact trivial)
    · cases hs; exact h
  · cases hs; exact h.cons (by exact trivial)
  · cases hs; exact h.state rfl

theorem invR_reach {beh c} (h : Reach beh c) : InvR c := by
  induction h with
  | init => exact ⟨fun _ h => (by cases h), fun _ _ _ h => (by cases h)⟩
  | op h0 hs ih => exact ih.start (tok_reach h0) hs
  | step _ hn ih => exact ih.next hn

/-! ### Closing a session -/

/-- Several steps. -/
inductive Steps (beh : Nat → List Act) : Conf → Conf → Prop where
  | refl {c} : Steps beh c c
  | step {c c' d} : Steps beh c c' → next beh c' = .ok d → Steps beh c d

/-- One step changes the top of the stack only. -/
theorem next_top {beh f k s c'} (h : next beh ⟨f :: k, s⟩ = .ok c') : ∃ k', c'.stack = k' ++ k := by
  unfold next at h
  split at h
  · rename_i e; cases e
  all_goals rename_i e; cases e
  · cases h; exact ⟨[], rfl⟩
  · obtain ⟨r, h1, h2⟩ := Out.bind_ok h
    cases h2; exact ⟨r.1 ++ [_], by simp; rfl⟩
  · split at h
    · cases h; exact ⟨[_], rfl⟩
    · cases h
  · obtain ⟨r, h1, h2⟩ := Out.bind_ok h
    cases h2; exact ⟨r.1, rfl⟩
  · split at h
    · split at h
      · cases h
      · cases h; exact ⟨[_], rfl⟩
    · split at h
      · cases h; exact ⟨[_], rfl⟩
      · cases h; exact ⟨[_], rfl⟩
  · obtain ⟨r, h1, h2⟩ := Out.bind_ok h
    cases h2; exact ⟨r.1, rfl⟩
  · obtain ⟨r, h1, h2⟩ := Out.bind_ok h
    cases h2; exact ⟨[], rfl⟩
  · split at h
    · cases h; exact ⟨[], rfl⟩
    · cases h; exact ⟨[_, _, _], rfl⟩
  · cases h; exact ⟨[], rfl⟩
  · split at h
    · cases h
    · split at h
      · cases h; exact ⟨[_, _], rfl⟩
      · cases h; exact ⟨[_], rfl⟩
  · split at h
    · cases h; exact ⟨[_], rfl⟩
    · split at h
      · cases h
      · cases h; exact ⟨[_], rfl⟩
  · split at h
    · cases h
    · cases h; exact ⟨[_, _], rfl⟩
  · split at h
    · cases h
    · split at h
      · cases h; exact ⟨_, rfl⟩
      · cases h; exact ⟨[], rfl⟩
  · cases h; exact ⟨[], rfl⟩
  · split at h
    · cases h
    · split at h
      · cases h; exact ⟨[_, _], rfl⟩
      · cases h; exact ⟨[_], rfl⟩
  · split at h
    · cases h; exact ⟨[_], rfl⟩
    · cases h; exact ⟨[_], rfl⟩

/-- A loop that ends leaves no request it looks for. -/
theorem loop_clears {beh pre p code s c} (h : Steps beh ⟨pre ++ [.loop p code], s⟩ c) :
    (∃ pre', c.stack = pre' ++ [.loop p code]) ∨ (c.stack = [] ∧ ∀ x ∈ c.st.cbs, p.hit x = false) := by
  generalize hc0 : (⟨pre ++ [.loop p code], s⟩ : Conf) = c0 at h
  induction h with
  | refl => subst hc0; exact .inl ⟨pre, rfl⟩
  | step h1 hn ih =>
    rename_i c1 d
    rcases ih with ⟨pre', e⟩ | ⟨e, hx⟩
    · obtain ⟨k1, s1⟩ := c1
      dsimp only at e
      subst e
      cases pre' with
      | nil =>
        simp only [List.nil_append, next] at hn
        split at hn
        · rename_i hf
          cases hn
          refine .inr ⟨rfl, fun x hx => ?_⟩
          have := List.find?_eq_none.1 hf x hx
          simpa using this
        · cases hn; exact .inl ⟨[_, _], rfl⟩
      | cons f k =>
        obtain ⟨k', e⟩ := next_top hn
        exact .inl ⟨k' ++ k, by rw [e]; simp⟩
    · obtain ⟨k1, s1⟩ := c1
      dsimp only at e
      subst e
      cases hn
      exact .inr ⟨rfl, hx⟩

/-- With well-behaved handlers a listed request stays or its handler is called. -/
structure Tell (id : Nat) (b0 : Bool × Bool × Bool) (c : Conf) : Prop where
  inv : InvU c
  tell : (∃ x ∈ c.st.cbs, x.id = id ∧ x.busy = b0) ∨ (∃ code, .handler id code ∈ c.stack) ∨ ∃ code, .called id code ∈ c.st.log
  low : ∀ f ∈ c.stack, match f with
    | .afterInvoke .. => False
    | .afterDiscovery .. => False
    | .afterPing _ => False
    | _ => True

theorem Tell.next {beh id b0 c c'} (hb : ∀ n, ∀ a ∈ beh n, a.tame = true) (h : Tell id b0 c) (hn : next beh c = .ok c') : Tell id b0 c' := by
  have hi' : InvU c' := by
    obtain ⟨d, e, hd⟩ := h.inv.next hb
    rw [hn] at e; cases e; exact hd
  obtain ⟨k, s⟩ := c
  have hcore := h.inv.core
  have tl := h.tell
  have lo := h.low
  have hsh := h.inv.shape
  -- a step that keeps requests and log and removes no handler frame
  cases hsh with
  | handler own b =>
    rename_i j code k
    obtain ⟨x, hm, hx⟩ := own.mem b
    simp only [Client.next] at hn
    rw [if_pos (any_pos.2 (cnt_pos.2 ⟨x, hm, hx⟩))] at hn
    cases hn
    refine ⟨hi', ?_, ?_⟩
    · rcases tl with hl | ⟨cd, hl⟩ | ⟨cd, hl⟩
      · exact .inl hl
      · rcases List.mem_cons.1 hl with hl | hl
        · cases hl; exact .inr (.inr ⟨code, List.mem_append_right _ List.mem_cons_self⟩)
        · exact .inr (.inl ⟨cd, List.mem_cons_of_mem _ hl⟩)
      · exact .inr (.inr ⟨cd, List.mem_append_left _ hl⟩)
    · intro f hf
      rcases List.mem_cons.1 hf with rfl | hf
      · trivial
      · exact lo f (List.mem_cons_of_mem _ hf)
  | acts own ht b =>
    rename_i cur l k
    cases l with
    | nil =>
      cases hn
      refine ⟨hi', ?_, fun f hf => lo f (List.mem_cons_of_mem _ hf)⟩
      rcases tl with hl | ⟨cd, hl⟩ | hl
      · exact .inl hl
      · rcases List.mem_cons.1 hl with hl | hl
        · cases hl
        · exact .inr (.inl ⟨cd, hl⟩)
      · exact .inr (.inr hl)
    | cons a l =>
      obtain ⟨s', e, h1, g⟩ := act_tame hcore (some cur) (ht a (by simp)) (fun id e => by cases e; exact own.mem b)
      simp only [Client.next] at hn
      rw [e] at hn
      cases hn
      refine ⟨hi', ?_, ?_⟩
      · rcases tl with hl | ⟨cd, hl⟩ | ⟨cd, hl⟩
        · exact .inl (by
            obtain ⟨y, hy, e1, e2⟩ := hl
            obtain ⟨z, hz, e3, e4⟩ := g.cbs y hy
            exact ⟨z, hz, by rw [e3, e1], by rw [e4, e2]⟩)
        · rcases List.mem_cons.1 hl with hl | hl
          · cases hl
          · exact .inr (.inl ⟨cd, List.mem_cons_of_mem _ hl⟩)
        · obtain ⟨ext, el, _⟩ := (evo_act e).1.log
          have el : s'.log = s.log ++ ext := el
          exact .inr (.inr ⟨cd, by show _ ∈ s'.log; rw [el]; exact List.mem_append_left _ hl⟩)
      · intro f hf
        rcases List.mem_cons.1 hf with rfl | hf
        · trivial
        · exact lo f (List.mem_cons_of_mem _ hf)
  | base b =>
    -- no handler frame in a base stack
    have nohand : ∀ cd, Frame.handler id cd ∉ k := by
      intro cd hm
      cases b <;> simp at hm
      case notifyLoop hbl => cases hbl <;> simp at hm
      case loop hbl => cases hbl <;> simp at hm
    have tl2 : (∃ x ∈ s.cbs, x.id = id ∧ x.busy = b0) ∨ ∃ code, .called id code ∈ s.log := by
      rcases tl with hl | ⟨cd, hl⟩ | hl
      · exact .inl hl
      · exact absurd hl (nohand cd)
      · exact .inr hl
    have keep : ∀ {c'' : Conf}, c''.st.cbs = s.cbs → (∃ ext, c''.st.log = s.log ++ ext) →
        (∃ x ∈ c''.st.cbs, x.id = id ∧ x.busy = b0) ∨ (∃ code, .handler id code ∈ c''.stack) ∨ ∃ code, .called id code ∈ c''.st.log := by
      rintro c'' e1 ⟨ext, e2⟩
      rcases tl2 with hl | ⟨cd, hl⟩
      · left; rw [e1]; exact hl
      · right; right; exact ⟨cd, by rw [e2]; exact List.mem_append_left _ hl⟩
    cases b with
    | nil o => cases hn; exact ⟨hi', h.tell, lo⟩
    | invoke o hc => exact (lo _ List.mem_cons_self).elim
    | disc o hc => exact (lo _ List.mem_cons_self).elim
    | ping o hc => exact (lo _ List.mem_cons_self).elim
    | notify o =>
      obtain ⟨r, h1, h2⟩ := Out.bind_ok hn
      cases h2
      have e := evo_afterNotify h1
      refine ⟨hi', keep ?_ ?_, ?_⟩
      · unfold afterNotify at h1
        split at h1
        · cases h1
        · cases h1; exact (dropPing_same false _ s).1
      · obtain ⟨ext, e1, _⟩ := e.1.log; exact ⟨ext, e1⟩
      · rw [e.2]; intro f hf; cases hf
    | notifyLoop o hbl =>
      obtain ⟨r, h1, h2⟩ := Out.bind_ok hn
      cases h2
      have e := evo_afterNotify h1
      refine ⟨hi', keep ?_ ?_, ?_⟩
      · unfold afterNotify at h1
        split at h1
        · cases h1
        · cases h1; exact (dropPing_same false _ s).1
      · obtain ⟨ext, e1, _⟩ := e.1.log; exact ⟨ext, e1⟩
      · rw [e.2]; intro f hf; exact lo f (List.mem_cons_of_mem _ hf)
    | loop o hbl =>
      simp only [Client.next] at hn
      split at hn
      · cases hn
        exact ⟨hi', keep rfl ⟨[], by simp⟩, fun f hf => lo f (List.mem_cons_of_mem _ hf)⟩
      · rename_i d hd
        cases hn
        refine ⟨hi', ?_, ?_⟩
        · rcases tl2 with ⟨x, hx, hxi, hxb⟩ | hl
          · by_cases hdi : d.id = id
            · right; left; exact ⟨_, by rw [hdi]; exact List.mem_cons_self⟩
            · left
              refine ⟨x, List.mem_filter.2 ⟨hx, ?_⟩, hxi, hxb⟩
              simp; omega
          · exact .inr (.inr hl)
        · intro f hf
          rcases List.mem_cons.1 hf with rfl | hf
          · trivial
          · rcases List.mem_cons.1 hf with rfl | hf
            · trivial
            · exact lo f hf
    | transLoop o hp =>
      rename_i ep t e code
      cases t with
      | none => cases hn; exact ⟨hi', keep rfl ⟨[], by simp⟩, fun f hf => lo f (List.mem_cons_of_mem _ hf)⟩
      | some t =>
        obtain ⟨x, hf, hx, hi⟩ := find_ptr hp
        simp only [Client.next] at hn
        rw [hf] at hn
        dsimp only at hn
        split at hn
        · cases hn
          refine ⟨hi', keep rfl ⟨[], by simp⟩, fun f hf => ?_⟩
          simp at hf
          rcases hf with rfl | rfl | rfl <;> trivial
        · cases hn
          refine ⟨hi', keep rfl ⟨[], by simp⟩, fun f hf => ?_⟩
          simp at hf
          rcases hf with rfl | rfl <;> trivial
    | transAfter o hp hnx hne =>
      simp only [Client.next] at hn
      split at hn
      · cases hn
        refine ⟨hi', keep rfl ⟨[], by simp⟩, fun f hf => ?_⟩
        simp at hf
        rcases hf with rfl | rfl <;> trivial
      · split at hn
        · cases hn
        · cases hn
          refine ⟨hi', keep rfl ⟨[], by simp [clearTrans]⟩, fun f hf => ?_⟩
          simp at hf
          rcases hf with rfl | rfl <;> trivial
    | exhaust o hp hnx hne =>
      obtain ⟨x, hf, hx, hi⟩ := find_ptr hp
      simp only [Client.next] at hn
      rw [hf] at hn
      cases hn
      refine ⟨hi', keep rfl ⟨[], by simp⟩, fun f hf => ?_⟩
      simp at hf
      rcases hf with rfl | rfl | rfl <;> trivial
    | exhaustAfter o hp hnx hne =>
      obtain ⟨x, hf, hx, hi⟩ := find_ptr hp
      simp only [Client.next] at hn
      rw [hf] at hn
      dsimp only at hn
      rw [if_neg (by rw [(hcore.trans x hx).2]; simp)] at hn
      cases hn
      refine ⟨hi', keep rfl ⟨[], by simp [clearTrans]⟩, fun f hf => ?_⟩
      simp at hf
      subst hf; trivial
    | checkLoop o hp =>
      rename_i exh t
      cases t with
      | none => cases hn; exact ⟨hi', keep rfl ⟨[], by simp⟩, fun f hf => lo f (List.mem_cons_of_mem _ hf)⟩
      | some t =>
        obtain ⟨x, hf, hx, hi⟩ := find_ptr hp
        simp only [Client.next] at hn
        rw [hf] at hn
        dsimp only at hn
        split at hn
        · cases hn
          refine ⟨hi', keep rfl ⟨[], by simp⟩, fun f hf => ?_⟩
          simp at hf
          rcases hf with rfl | rfl <;> trivial
        · cases hn
          refine ⟨hi', keep rfl ⟨[], by simp⟩, fun f hf => ?_⟩
          simp at hf
          subst hf; trivial
    | checkAfter o hnx =>
      simp only [Client.next] at hn
      split at hn
      · cases hn
        refine ⟨hi', keep rfl ⟨[], by simp⟩, fun f hf => ?_⟩
        simp at hf
        subst hf; trivial
      · cases hn
        refine ⟨hi', keep rfl ⟨[], by simp⟩, fun f hf => ?_⟩
        simp at hf
        subst hf; trivial

theorem Tell.steps {beh id b0 c c'} (hb : ∀ n, ∀ a ∈ beh n, a.tame = true) (h : Tell id b0 c) (hn : Steps beh c c') : Tell id b0 c' := by
  induction hn with
  | refl => exact h
  | step _ hs ih => exact ih.next hb hs

end Verif.Client
