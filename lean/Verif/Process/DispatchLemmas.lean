import Verif.Process.DispatchModel
/-! Invariants of the scheduler. -/
namespace Verif.Process.Dispatch

/-- The processes whose threads `call_process` has called and that have not returned. -/
def threads : List Fr → List Pid
  | [] => []
  | .thread p _ _ :: k => p :: threads k
  | _ :: k => threads k

/-- The processes that `exit_process` is working on. -/
def exitings : List Fr → List Pid
  | [] => []
  | .exiting p _ _ _ :: k => p :: exitings k
  | _ :: k => exitings k

/-- The processes whose threads `exit_process` has called. -/
def exitThreads : List Fr → List Pid
  | [] => []
  | .exitThread p :: k => p :: exitThreads k
  | _ :: k => exitThreads k

/-- A thread called by `exit_process` is above it on the stack. -/
def Wf : List Fr → Prop
  | [] => True
  | .exitThread p :: k => (exitings (k.take 1) = [p]) ∧ Wf k
  | _ :: k => Wf k

/-- States, chain and stack agree. -/
structure Agree (s : St) : Prop where
  nd : s.list.Nodup
  tn : (threads s.up).Nodup
  en : (exitings s.up).Nodup
  wf : Wf s.up
  c1 : ∀ p, s.state p = .called ↔ p ∈ threads s.up
  c2 : ∀ p, s.state p ≠ .none → p ∈ s.list
  c3 : ∀ p ∈ s.list, s.state p = .none → p ∈ exitings s.up
  c4 : ∀ p ∈ exitings s.up, p ∈ s.list ∧ s.state p = .none

/-- The use of the scheduler for which it works: nobody exits a process whose thread is running or that
is exiting already, and INIT events are sent by `oc_process_start` only. -/
def Fine (s : St) : Op → Prop
  | .act (.exit p) => p ∉ threads s.up ∧ p ∉ exitings s.up
  | .act (.post e) => e.ev ≠ evInit
  | _ => True

/-- A history of such uses; the queue holds no INIT event. -/
def FineRun : St → List Op → Prop
  | _, [] => True
  | s, op :: ops => Fine s op ∧ FineRun (step s op) ops

theorem upd_same {α : Type} (f : Pid → α) (p : Pid) (v : α) : upd f p v p = v := by simp [upd]
theorem upd_other {α : Type} (f : Pid → α) {p q : Pid} (v : α) (h : q ≠ p) : upd f p v q = f q := by
  simp [upd, h]

theorem exitThreads_sub {up : List Fr} (h : Wf up) {p : Pid} (hp : p ∈ exitThreads up) :
    p ∈ exitings up := by
  induction up with
  | nil => exact hp
  | cons f k ih =>
    cases f with
    | exitThread q =>
      simp only [exitThreads, List.mem_cons, Wf] at hp h
      simp only [exitings]
      rcases hp with hp | hp
      · subst hp
        cases k with
        | nil => simp [exitings] at h
        | cons g k =>
          obtain ⟨h, _⟩ := h
          cases g <;> simp [exitings] at h ⊢
          exact .inl h.symm
      · exact ih h.2 hp
    | exiting q f c st =>
      simp only [exitThreads, Wf, exitings, List.mem_cons] at hp h ⊢
      exact .inr (ih h hp)
    | _ =>
      simp only [exitThreads, Wf, exitings] at hp h ⊢
      exact ih h hp

theorem agree_call {s : St} (h : Agree s) (fr : List Fr) (hfr : threads fr = threads s.up)
    (he : exitings fr = exitings s.up) (hw : Wf fr) {t : St} (h1 : t.list = s.list)
    (h2 : t.state = s.state) (h3 : t.up = fr) : Agree t := by
  obtain ⟨a, b, c, d, e, f, g, i⟩ := h
  refine ⟨by rw [h1]; exact a, by rw [h3, hfr]; exact b, by rw [h3, he]; exact c, by rw [h3]; exact hw,
    by rw [h2, h3, hfr]; exact e, by rw [h1, h2]; exact f, by rw [h1, h2, h3, he]; exact g,
    by rw [h1, h2, h3, he]; exact i⟩

theorem agree_exitEnter {s : St} {p : Pid} {c : Option Pid}
    (nd : s.list.Nodup) (tn : (threads s.up).Nodup) (en : (exitings s.up).Nodup) (wf : Wf s.up)
    (c1 : ∀ q, q ≠ p → (s.state q = .called ↔ q ∈ threads s.up)) (hp : p ∉ threads s.up)
    (hps : s.state p ≠ .none ∨ p ∉ s.list)
    (hpn : p ∉ s.list → s.state p = .none)
    (c2 : ∀ q, s.state q ≠ .none → q ∈ s.list)
    (c3 : ∀ q ∈ s.list, s.state q = .none → q ∈ exitings s.up)
    (c4 : ∀ q ∈ exitings s.up, q ∈ s.list ∧ s.state q = .none) : Agree (exitEnter p c s) := by
  unfold exitEnter
  split
  · rename_i hl
    refine ⟨nd, tn, en, wf, ?_, c2, c3, c4⟩
    intro q
    by_cases hq : q = p
    · subst hq
      simp [hpn hl, hp]
    · exact c1 q hq
  · rename_i hl
    have hl : p ∈ s.list := Classical.not_not.mp hl
    have hne : s.state p ≠ .none := by
      rcases hps with h | h
      · exact h
      · exact absurd hl h
    have hpe : p ∉ exitings s.up := fun h => hne (c4 p h).2
    rw [if_neg hne]
    refine ⟨nd, ?_, ?_, ?_, ?_, ?_, ?_, ?_⟩
    · simpa [threads] using tn
    · simpa [exitings] using ⟨hpe, en⟩
    · simpa [Wf] using wf
    · intro q
      by_cases hq : q = p
      · subst hq
        simp [upd_same, threads, hp]
      · simpa [upd_other _ _ hq, threads] using c1 q hq
    · intro q hq
      by_cases hqp : q = p
      · subst hqp; exact hl
      · exact c2 q (by simpa [upd_other _ _ hqp] using hq)
    · intro q hq hs
      simp only [exitings, List.mem_cons]
      by_cases hqp : q = p
      · exact .inl hqp
      · exact .inr (c3 q hq (by simpa [upd_other _ _ hqp] using hs))
    · intro q hq
      simp only [exitings, List.mem_cons] at hq
      by_cases hqp : q = p
      · subst hqp; exact ⟨hl, upd_same _ _ _⟩
      · rcases hq with hq | hq
        · exact absurd hq hqp
        · have := c4 q hq
          exact ⟨this.1, by simpa [upd_other _ _ hqp] using this.2⟩

theorem agree_tickFr {s : St} {f : Fr} {k : List Fr} (h : Agree s) (hu : s.up = f :: k) :
    Agree (tickFr s f k) := by
  obtain ⟨nd, tn, en, wf, c1, c2, c3, c4⟩ := id h
  cases f with
  | call p ev d =>
    simp only [tickFr]
    rw [hu] at tn en wf c1 c3 c4
    simp only [threads, exitings, Wf] at tn en wf c1 c3 c4
    split
    · rename_i hr
      have hp : p ∉ threads k := fun hx => by
        have := (c1 p).2 hx
        rw [hr] at this
        cases this
      refine ⟨nd, ?_, ?_, ?_, ?_, ?_, ?_, ?_⟩
      · simpa [threads] using ⟨hp, tn⟩
      · simpa [exitings] using en
      · simpa [Wf] using wf
      · intro q
        simp only [threads, List.mem_cons]
        by_cases hq : q = p
        · subst hq; simp [upd_same]
        · simpa [upd_other _ _ hq, hq] using c1 q
      · intro q hq
        by_cases hqp : q = p
        · subst hqp; exact c2 q (by rw [hr]; simp)
        · exact c2 q (by simpa [upd_other _ _ hqp] using hq)
      · intro q hq hs
        simp only [exitings]
        by_cases hqp : q = p
        · subst hqp; simp [upd_same] at hs
        · exact c3 q hq (by simpa [upd_other _ _ hqp] using hs)
      · intro q hq
        simp only [exitings] at hq
        have := c4 q hq
        by_cases hqp : q = p
        · subst hqp
          rw [hr] at this
          cases this.2
        · exact ⟨this.1, by simpa [upd_other _ _ hqp] using this.2⟩
    · exact ⟨nd, tn, en, wf, c1, c2, c3, c4⟩
  | thread p ev d => exact h
  | exitThread p => exact h
  | exiting p f c st =>
    rw [hu] at wf
    simp only [Wf] at wf
    cases st with
    | «at» q =>
      cases q with
      | none => exact agree_call h (.exiting p f c .self :: k) (by rw [hu]; rfl) (by rw [hu]; rfl) wf rfl rfl rfl
      | some q =>
        simp only [tickFr]
        split
        · exact agree_call h (.exiting p f c (.after q) :: k) (by rw [hu]; rfl) (by rw [hu]; rfl) wf rfl rfl rfl
        · exact agree_call h (.call q evExited p :: .exiting p f c (.after q) :: k) (by rw [hu]; rfl)
            (by rw [hu]; rfl) wf rfl rfl rfl
    | after q =>
      exact agree_call h (.exiting p f c (.at (s.next q)) :: k) (by rw [hu]; rfl) (by rw [hu]; rfl) wf rfl rfl rfl
    | self =>
      simp only [tickFr]
      split
      · exact agree_call h (.exitThread p :: .exiting p f c .unlink :: k) (by rw [hu]; rfl)
          (by rw [hu]; rfl) ⟨rfl, wf⟩ rfl rfl rfl
      · exact agree_call h (.exiting p f c .unlink :: k) (by rw [hu]; rfl) (by rw [hu]; rfl) wf rfl rfl rfl
    | unlink =>
      rw [hu] at tn en c1 c3 c4
      simp only [threads, exitings, List.nodup_cons, List.mem_cons] at tn en c1 c3 c4
      have hp := c4 p (.inl rfl)
      simp only [tickFr, unlink]
      refine ⟨nd.erase p, tn, en.2, wf, c1, ?_, ?_, ?_⟩
      · intro q hq
        have : q ≠ p := fun he => hq (he ▸ hp.2)
        exact (List.mem_erase_of_ne this).2 (c2 q hq)
      · intro q hq hs
        have hqp : q ≠ p := fun he => by
          subst he
          exact (nd.not_mem_erase) hq
        rcases c3 q (List.mem_of_mem_erase hq) hs with h' | h'
        · exact absurd h' hqp
        · exact h'
      · intro q hq
        have hqp : q ≠ p := fun he => en.1 (he ▸ hq)
        have := c4 q (.inr hq)
        exact ⟨(List.mem_erase_of_ne hqp).2 this.1, this.2⟩
  | restore c =>
    rw [hu] at wf
    exact agree_call h k (by rw [hu]; rfl) (by rw [hu]; rfl) wf rfl rfl rfl

/-- Every event of the queue is none of INIT. -/
def NoInit (s : St) : Prop := ∀ e ∈ s.queue, e.ev ≠ evInit

/-- The base is waiting for the first process of a sweep only when nothing runs above it. -/
def SweepTop (s : St) : Prop :=
  match s.base with
  | .sweep q _ => s.up = [] ∧ ∀ r, q = some r → r ∈ s.list
  | _ => True

theorem agree_tickBase {s : St} (h : Agree s) (hu : s.up = []) (hn : NoInit s) (hs : SweepTop s) :
    Agree (tickBase s) := by
  unfold tickBase
  cases hb : s.base with
  | idle => exact h
  | event =>
    simp only
    cases hq : s.queue with
    | nil => exact agree_call h [] (by rw [hu]) (by rw [hu]) trivial rfl rfl hu
    | cons e q =>
      simp only
      cases he : e.p with
      | none => exact agree_call h [] (by rw [hu]) (by rw [hu]) trivial rfl rfl hu
      | some r =>
        simp only
        have : e.ev ≠ evInit := hn e (by rw [hq]; simp)
        refine agree_call h [.call r e.ev e.data] (by rw [hu]; rfl) (by rw [hu]; rfl) trivial rfl ?_ rfl
        simp [this]
  | sweep q k =>
    cases q with
    | none =>
      cases k with
      | event => exact agree_call h [] (by rw [hu]) (by rw [hu]) trivial rfl rfl hu
      | bcast q ev d => exact agree_call h [.call q ev d] (by rw [hu]; rfl) (by rw [hu]; rfl) trivial rfl rfl rfl
    | some q =>
      simp only
      split
      · have hql : q ∈ s.list := by
          unfold SweepTop at hs
          rw [hb] at hs
          exact hs.2 q rfl
        have hrun : s.state q = .running := by
          cases hst : s.state q with
          | none =>
            have := h.c3 q hql hst
            rw [hu] at this
            simp [exitings] at this
          | running => rfl
          | called =>
            have := (h.c1 q).1 hst
            rw [hu] at this
            simp [threads] at this
        refine agree_call h [.call q evPoll 0] (by rw [hu]; rfl) (by rw [hu]; rfl) trivial rfl ?_ rfl
        funext r
        by_cases hr : r = q
        · subst hr; simp [upd_same, hrun]
        · simp [upd_other _ _ hr]
      · exact agree_call h [] (by rw [hu]) (by rw [hu]) trivial rfl rfl hu
  | sweepNext q k => exact agree_call h [] (by rw [hu]) (by rw [hu]) trivial rfl rfl hu
  | bcast q ev d =>
    cases q with
    | none => exact agree_call h [] (by rw [hu]) (by rw [hu]) trivial rfl rfl hu
    | some q =>
      simp only
      split
      · exact agree_call h [] (by rw [hu]) (by rw [hu]) trivial rfl rfl hu
      · exact agree_call h [.call q ev d] (by rw [hu]; rfl) (by rw [hu]; rfl) trivial rfl rfl rfl
  | bcastNext q ev d => exact agree_call h [] (by rw [hu]) (by rw [hu]) trivial rfl rfl hu

theorem agree_ret {s : St} (b : Bool) (h : Agree s) : Agree (ret b s) := by
  obtain ⟨nd, tn, en, wf, c1, c2, c3, c4⟩ := id h
  unfold ret
  split
  · rename_i p ev d k hu
    rw [hu] at tn en wf c1 c3 c4
    simp only [threads, exitings, Wf, List.nodup_cons, List.mem_cons] at tn en wf c1 c3 c4
    have hc : s.state p = .called := (c1 p).2 (.inl rfl)
    have hl : p ∈ s.list := c2 p (by rw [hc]; simp)
    split
    · refine agree_exitEnter nd tn.2 en wf ?_ tn.1 (.inl (by simp [hc])) (fun hx => absurd hl hx) c2 c3 c4
      intro q hq
      simpa [hq] using c1 q
    · refine ⟨nd, tn.2, en, wf, ?_, ?_, ?_, ?_⟩
      · intro q
        by_cases hq : q = p
        · subst hq; simp [upd_same, tn.1]
        · simpa [upd_other _ _ hq, hq] using c1 q
      · intro q hq
        by_cases hqp : q = p
        · subst hqp; exact hl
        · exact c2 q (by simpa [upd_other _ _ hqp] using hq)
      · intro q hq hs
        by_cases hqp : q = p
        · subst hqp; simp [upd_same] at hs
        · exact c3 q hq (by simpa [upd_other _ _ hqp] using hs)
      · intro q hq
        have := c4 q hq
        by_cases hqp : q = p
        · subst hqp
          rw [hc] at this
          cases this.2
        · exact ⟨this.1, by simpa [upd_other _ _ hqp] using this.2⟩
  · rename_i p k hu
    rw [hu] at wf
    exact agree_call h k (by rw [hu]; rfl) (by rw [hu]; rfl) wf.2 rfl rfl rfl
  · exact h

theorem agree_act {s : St} {a : Act} (h : Agree s) (hf : Fine s (.act a)) : Agree (act s a) := by
  cases a with
  | post e => exact agree_call h s.up rfl rfl h.wf rfl rfl rfl
  | sync p ev d => exact agree_call h (.call p ev d :: .restore s.cur :: s.up) rfl rfl h.wf rfl rfl rfl
  | poll p =>
    simp only [act, poll]
    split
    · exact h
    · exact agree_call h s.up rfl rfl h.wf rfl rfl rfl
  | exit p =>
    obtain ⟨nd, tn, en, wf, c1, c2, c3, c4⟩ := id h
    refine agree_exitEnter nd tn en wf (fun q _ => c1 q) hf.1 ?_ ?_ c2 c3 c4
    · by_cases hl : p ∈ s.list
      · exact .inl fun hn => hf.2 (c3 p hl hn)
      · exact .inr hl
    · intro hl
      exact Classical.byContradiction fun hx => hl (c2 p hx)
  | start p d =>
    obtain ⟨nd, tn, en, wf, c1, c2, c3, c4⟩ := id h
    simp only [act, start]
    split
    · exact h
    · rename_i hl
      have hn : s.state p = .none := Classical.byContradiction fun hx => hl (c2 p hx)
      refine ⟨by simpa using ⟨hl, nd⟩, tn, en, wf, ?_, ?_, ?_, ?_⟩
      · intro q
        simp only [threads]
        by_cases hq : q = p
        · subst hq
          have : q ∉ threads s.up := fun hx => by
            have := (c1 q).2 hx
            rw [hn] at this
            cases this
          simp [upd_same, this]
        · simpa [upd_other _ _ hq] using c1 q
      · intro q hq
        by_cases hqp : q = p
        · subst hqp; simp
        · exact List.mem_cons_of_mem _ (c2 q (by simpa [upd_other _ _ hqp] using hq))
      · intro q hq hs
        simp only [exitings]
        by_cases hqp : q = p
        · subst hqp; simp [upd_same] at hs
        · refine c3 q ?_ (by simpa [upd_other _ _ hqp] using hs)
          simpa [hqp] using hq
      · intro q hq
        simp only [exitings] at hq
        have := c4 q hq
        by_cases hqp : q = p
        · subst hqp; exact absurd this.1 hl
        · exact ⟨List.mem_cons_of_mem _ this.1, by simpa [upd_other _ _ hqp] using this.2⟩
  | ret b => exact agree_ret b h
  | run =>
    simp only [act]
    split
    · unfold runStart
      split
      · exact agree_call h s.up rfl rfl h.wf rfl rfl rfl
      · exact agree_call h s.up rfl rfl h.wf rfl rfl rfl
    · exact h

end Verif.Process.Dispatch
