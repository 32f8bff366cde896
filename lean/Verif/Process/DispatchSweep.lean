import Verif.Process.DispatchLemmas
/-! The sweep over the processes that asked to be polled. -/
namespace Verif.Process.Dispatch

/-- A chain from one of its processes on. -/
def tailFrom (l : List Pid) : Option Pid → List Pid
  | none => []
  | some q => l.dropWhile (· != q)

theorem succ_mem {l : List Pid} {q r : Pid} (h : succ l q = some r) : r ∈ l := by
  induction l with
  | nil => cases h
  | cons a l ih =>
    simp only [succ] at h
    split at h
    · exact List.mem_cons_of_mem _ (List.mem_of_mem_head? h)
    · exact List.mem_cons_of_mem _ (ih h)

theorem tail_head (l : List Pid) : tailFrom l l.head? = l := by
  cases l <;> simp [tailFrom]

theorem tail_cons_ne {a : Pid} {l : List Pid} {o : Option Pid} (h : ∀ r, o = some r → r ≠ a) :
    tailFrom (a :: l) o = tailFrom l o := by
  cases o with
  | none => rfl
  | some r =>
    have := h r rfl
    simp [tailFrom, Ne.symm this]

theorem after_cons_self {a : Pid} {l : List Pid} (h : (a :: l).Nodup) :
    tailFrom (a :: l) (succ (a :: l) a) = l := by
  simp only [succ, if_true]
  rw [tail_cons_ne, tail_head]
  intro r hr he
  subst he
  exact (List.nodup_cons.1 h).1 (List.mem_of_mem_head? hr)

theorem after_cons_ne {a q : Pid} {l : List Pid} (h : (a :: l).Nodup) (hq : a ≠ q) :
    tailFrom (a :: l) (succ (a :: l) q) = tailFrom l (succ l q) := by
  simp only [succ, if_neg hq]
  apply tail_cons_ne
  intro r hr he
  subst he
  exact (List.nodup_cons.1 h).1 (succ_mem hr)

theorem after_erase {l : List Pid} {p q x : Pid} (h : l.Nodup) (hq : q ∈ l) (hp : p ≠ q)
    (hx : x ∈ tailFrom l (succ l q)) (hxp : x ≠ p) :
    x ∈ tailFrom (l.erase p) (succ (l.erase p) q) := by
  induction l with
  | nil => cases hq
  | cons a l ih =>
    by_cases ha : a = p
    · subst ha
      rw [List.erase_cons_head]
      rw [after_cons_ne h hp] at hx
      exact hx
    · rw [List.erase_cons_tail (by simpa using ha)]
      have hn : (a :: l.erase p).Nodup := by
        have := h.erase p
        rwa [List.erase_cons_tail (by simpa using ha)] at this
      by_cases haq : a = q
      · subst haq
        rw [after_cons_self h] at hx
        rw [after_cons_self hn]
        exact (List.mem_erase_of_ne hxp).2 hx
      · rw [after_cons_ne h haq] at hx
        rw [after_cons_ne hn haq]
        have hq' : q ∈ l := by
          rcases List.mem_cons.1 hq with h' | h'
          · exact absurd h'.symm haq
          · exact h'
        exact ih (List.nodup_cons.1 h).2 hq' hx

theorem after_erase_self {l : List Pid} {q : Pid} (h : l.Nodup) (hq : q ∈ l) :
    tailFrom (l.erase q) (succ l q) = tailFrom l (succ l q) ∧
      ∀ r, succ l q = some r → r ∈ l.erase q := by
  induction l with
  | nil => cases hq
  | cons a l ih =>
    by_cases haq : a = q
    · subst haq
      rw [List.erase_cons_head, after_cons_self h]
      simp only [succ, if_true]
      exact ⟨tail_head l, fun r hr => List.mem_of_mem_head? hr⟩
    · rw [List.erase_cons_tail (by simpa using haq), after_cons_ne h haq]
      have hq' : q ∈ l := by
        rcases List.mem_cons.1 hq with h' | h'
        · exact absurd h'.symm haq
        · exact h'
      obtain ⟨h1, h2⟩ := ih (List.nodup_cons.1 h).2 hq'
      simp only [succ, if_neg haq]
      refine ⟨?_, fun r hr => List.mem_cons_of_mem _ (h2 r hr)⟩
      rw [tail_cons_ne, h1]
      intro r hr he
      subst he
      exact (List.nodup_cons.1 h).1 (succ_mem hr)

theorem tail_split {l : List Pid} {q x : Pid} (h : l.Nodup) (hq : q ∈ l)
    (hx : x ∈ tailFrom l (some q)) : x = q ∨ x ∈ tailFrom l (succ l q) := by
  induction l with
  | nil => cases hq
  | cons a l ih =>
    by_cases haq : a = q
    · subst haq
      rw [after_cons_self h]
      simpa [tailFrom] using hx
    · rw [after_cons_ne h haq]
      have hq' : q ∈ l := by
        rcases List.mem_cons.1 hq with h' | h'
        · exact absurd h'.symm haq
        · exact h'
      rw [tail_cons_ne (by simpa using Ne.symm haq)] at hx
      exact ih (List.nodup_cons.1 h).2 hq' hx

/-- The processes the sweep has still to come by. -/
def ahead (s : St) : List Pid :=
  match s.base with
  | .sweep q _ => tailFrom s.list q
  | .sweepNext q _ => tailFrom s.list (s.next q)
  | _ => []

/-- The frame of a call for `q`. -/
def Own (q : Pid) : Fr → Prop
  | .thread p _ _ => p = q
  | .exiting p _ _ _ => p = q
  | _ => False

/-- What is above the sweep belongs to the call for `q`. -/
def Bot (q : Pid) (up : List Fr) : Prop :=
  up = [] ∨ (∃ ev d, up = [.call q ev d]) ∨ ∃ f, up.getLast? = some f ∧ Own q f

/-- Where a sweep stands. -/
def Place (s : St) : Prop :=
  match s.base with
  | .sweep q _ => s.up = [] ∧ ∀ r, q = some r → r ∈ s.list
  | .sweepNext q _ => (q ∈ s.list ∧ Bot q s.up) ∨ (q ∉ s.list ∧ s.up = [] ∧ ∀ r, s.old q = some r → r ∈ s.list)
  | _ => True

/-- No request to be polled is lost. -/
structure Swept (s : St) : Prop where
  place : Place s
  rq : ∀ p ∈ s.req, s.needs p = true ∧ p ∈ s.list ∧ (s.gpoll = true ∨ p ∈ s.pend1 ∨ p ∈ ahead s)
  du : ∀ p ∈ s.due, p ∈ ahead s ∧ p ∈ s.req

theorem sweepTop_of {s : St} (h : Place s) : SweepTop s := by
  unfold Place at h
  unfold SweepTop
  split <;> rename_i hb
  · rw [hb] at h
    exact h
  · trivial

/-- A step that changes only the stack, the log, the queue and states. -/
theorem swept_stack {s t : St} (h : Swept s) (h1 : t.list = s.list) (h2 : t.old = s.old)
    (h3 : t.base = s.base) (h4 : t.req = s.req) (h5 : t.due = s.due) (h6 : t.needs = s.needs)
    (h7 : t.gpoll = s.gpoll) (h8 : t.pend1 = s.pend1)
    (h9 : ∀ q k, s.base = .sweepNext q k → q ∈ s.list → Bot q s.up → Bot q t.up)
    (h10 : s.up = [] → t.up = [] ∨ s.base = .idle) : Swept t := by
  have ha : ahead t = ahead s := by
    unfold ahead St.next
    rw [h1, h2, h3]
  refine ⟨?_, by rw [h4, h6, h1, h7, h8, ha]; exact h.rq, by rw [h5, h4, ha]; exact h.du⟩
  have := h.place
  unfold Place at this ⊢
  rw [h3, h1, h2]
  split
  · rename_i q k hb
    rw [hb] at this
    refine ⟨?_, this.2⟩
    rcases h10 this.1 with h' | h'
    · exact h'
    · rw [hb] at h'
      cases h'
  · rename_i q k hb
    rw [hb] at this
    rcases this with h' | h'
    · exact .inl ⟨h'.1, h9 q k hb h'.1 h'.2⟩
    · refine .inr ⟨h'.1, ?_, h'.2.2⟩
      rcases h10 h'.2.1 with h' | h'
      · exact h'
      · rw [hb] at h'
        cases h'
  · trivial

theorem bot_push {q : Pid} {f : Fr} {up : List Fr} (h : up ≠ []) (hb : ∃ g, up.getLast? = some g ∧ Own q g) :
    Bot q (f :: up) := by
  refine .inr (.inr ?_)
  obtain ⟨g, h1, h2⟩ := hb
  refine ⟨g, ?_, h2⟩
  cases up with
  | nil => exact absurd rfl h
  | cons a l => simpa [List.getLast?_cons_cons] using h1

/-- The bottom of a stack with more than a call. -/
theorem bot_own {q : Pid} {f : Fr} {k : List Fr} (h : Bot q (f :: k)) (hf : ∀ ev d, f :: k ≠ [.call q ev d]) :
    ∃ g, (f :: k).getLast? = some g ∧ Own q g := by
  rcases h with h | ⟨ev, d, h⟩ | h
  · cases h
  · exact absurd h (hf ev d)
  · exact h

theorem bot_tail {q : Pid} {f : Fr} {k : List Fr} (h : ∃ g, (f :: k).getLast? = some g ∧ Own q g)
    (hk : k ≠ []) : ∃ g, k.getLast? = some g ∧ Own q g := by
  obtain ⟨g, h1, h2⟩ := h
  refine ⟨g, ?_, h2⟩
  cases k with
  | nil => exact absurd rfl hk
  | cons a l => simpa [List.getLast?_cons_cons] using h1

/-- Replace the frame on top by frames the last of which belongs to the same process. -/
theorem bot_replace {q : Pid} {f g : Fr} {k : List Fr} (h : Bot q (f :: k)) (hg : Own q f → Own q g)
    (hc : ∀ ev d, f ≠ .call q ev d) : Bot q (g :: k) := by
  obtain ⟨x, h1, h2⟩ := bot_own h (fun ev d he => hc ev d (List.cons.inj he).1)
  cases k with
  | nil =>
    simp at h1
    subst h1
    exact .inr (.inr ⟨g, by simp, hg h2⟩)
  | cons a l =>
    exact bot_push (by simp) (bot_tail ⟨x, h1, h2⟩ (by simp))

theorem bot_pop {q : Pid} {f : Fr} {k : List Fr} (h : Bot q (f :: k)) : Bot q k := by
  cases k with
  | nil => exact .inl rfl
  | cons a l =>
    exact .inr (.inr (bot_tail (bot_own h (by intro ev d he; cases he)) (by simp)))

theorem own_threads {q : Pid} {up : List Fr} (h : ∃ f, up.getLast? = some f ∧ Own q f) :
    q ∈ threads up ∨ q ∈ exitings up := by
  induction up with
  | nil =>
    obtain ⟨f, h, _⟩ := h
    cases h
  | cons a l ih =>
    cases l with
    | nil =>
      obtain ⟨f, h1, h2⟩ := h
      simp at h1
      subst h1
      cases a <;> simp_all [Own, threads, exitings]
    | cons b l =>
      have := ih (bot_tail h (by simp))
      cases a <;> simp only [threads, exitings, List.mem_cons] at this ⊢ <;> grind

theorem swept_tickFr {s : St} {f : Fr} {k : List Fr} (h : Swept s) (ha : Agree s) (hu : s.up = f :: k) :
    Swept (tickFr s f k) := by
  have hne : s.up ≠ [] := by rw [hu]; simp
  cases f with
  | call p ev d =>
    simp only [tickFr]
    split
    · refine swept_stack h rfl rfl rfl rfl rfl rfl rfl rfl ?_ (fun hx => absurd hx hne)
      intro q _ _ _ hb
      rw [hu] at hb
      simp only
      rcases hb with hb | ⟨ev', d', hb⟩ | hb
      · cases hb
      · obtain ⟨h1, rfl⟩ := List.cons.inj hb
        cases h1
        exact .inr (.inr ⟨_, rfl, rfl⟩)
      · cases k with
        | nil =>
          obtain ⟨g, h1, h2⟩ := hb
          simp at h1
          subst h1
          cases h2
        | cons a l => exact bot_push (by simp) (bot_tail hb (by simp))
    · refine swept_stack h rfl rfl rfl rfl rfl rfl rfl rfl ?_ (fun hx => absurd hx hne)
      intro q _ _ _ hb
      rw [hu] at hb
      exact bot_pop hb
  | thread p ev d => exact h
  | exitThread p => exact h
  | exiting p f c st =>
    have hrep : ∀ st', ∀ q k', s.base = .sweepNext q k' → q ∈ s.list → Bot q s.up →
        Bot q (.exiting p f c st' :: k) := by
      intro st' q k' _ _ hb
      rw [hu] at hb
      exact bot_replace hb (fun hx => hx) (by intro ev d hx; cases hx)
    have hpush : ∀ st' g, ∀ q k', s.base = .sweepNext q k' → q ∈ s.list → Bot q s.up →
        Bot q (g :: .exiting p f c st' :: k) := by
      intro st' g q k' h1 h2 hb
      exact bot_push (by simp) (bot_own (hrep st' q k' h1 h2 hb) (by intro ev d hx; cases hx))
    cases st with
    | «at» q =>
      cases q with
      | none =>
        exact swept_stack h rfl rfl rfl rfl rfl rfl rfl rfl (hrep _) (fun hx => absurd hx hne)
      | some q =>
        simp only [tickFr]
        split
        · exact swept_stack h rfl rfl rfl rfl rfl rfl rfl rfl (hrep _) (fun hx => absurd hx hne)
        · exact swept_stack h rfl rfl rfl rfl rfl rfl rfl rfl (hpush _ _) (fun hx => absurd hx hne)
    | after q => exact swept_stack h rfl rfl rfl rfl rfl rfl rfl rfl (hrep _) (fun hx => absurd hx hne)
    | self =>
      simp only [tickFr]
      split
      · exact swept_stack h rfl rfl rfl rfl rfl rfl rfl rfl (hpush _ _) (fun hx => absurd hx hne)
      · exact swept_stack h rfl rfl rfl rfl rfl rfl rfl rfl (hrep _) (fun hx => absurd hx hne)
    | unlink =>
      have hpe : p ∈ exitings s.up := by rw [hu]; simp [exitings]
      obtain ⟨hpl, hpn⟩ := ha.c4 p hpe
      have hpk : p ∉ exitings k ∧ p ∉ threads k := by
        have := ha.en
        rw [hu] at this
        simp only [exitings, List.nodup_cons] at this
        refine ⟨this.1, fun hx => ?_⟩
        have hc := (ha.c1 p).2 (by rw [hu]; simpa [threads] using hx)
        rw [hpn] at hc
        cases hc
      -- the place of a sweep
      have hcase : ∀ q k', s.base = .sweepNext q k' →
          (q ≠ p ∧ q ∈ s.list ∧ Bot q k) ∨ (q = p ∧ k = []) := by
        intro q k' hb
        have hpl := h.place
        unfold Place at hpl
        rw [hb] at hpl
        rcases hpl with ⟨hq, hbot⟩ | ⟨_, hx, _⟩
        · rw [hu] at hbot
          have hown := bot_own hbot (by intro ev d hx; cases hx)
          by_cases hk : k = []
          · subst hk
            obtain ⟨g, h1, h2⟩ := hown
            simp at h1
            subst h1
            exact .inr ⟨h2.symm, rfl⟩
          · have hown' := bot_tail hown hk
            refine .inl ⟨?_, hq, .inr (.inr hown')⟩
            intro he
            subst he
            rcases own_threads hown' with h' | h'
            · exact hpk.2 h'
            · exact hpk.1 h'
        · exact absurd hx hne
      have hsw : ∀ q k', s.base ≠ .sweep q k' := by
        intro q k' hb
        have hpl := h.place
        unfold Place at hpl
        rw [hb] at hpl
        exact hne hpl.1
      have hah : ∀ x ∈ ahead s, x ≠ p → x ∈ ahead { unlink p s with cur := c, up := k } := by
        intro x hx hxp
        unfold ahead at hx ⊢
        simp only [unlink]
        cases hb : s.base with
        | sweep q k' => exact absurd hb (hsw q k')
        | sweepNext q k' =>
          rw [hb] at hx
          simp only [St.next] at hx ⊢
          rcases hcase q k' hb with ⟨hqp, hql, _⟩ | ⟨rfl, _⟩
          · rw [if_pos hql] at hx
            rw [if_pos ((List.mem_erase_of_ne hqp).2 hql)]
            exact after_erase ha.nd hql (Ne.symm hqp) hx hxp
          · rw [if_pos hpl] at hx
            rw [if_neg (ha.nd.not_mem_erase), if_pos hpl, upd_same, (after_erase_self ha.nd hpl).1]
            exact hx
        | _ => rw [hb] at hx; exact hx
      simp only [tickFr]
      refine ⟨?_, ?_, ?_⟩
      · unfold Place
        simp only [unlink]
        cases hb : s.base with
        | sweep q k' => exact absurd hb (hsw q k')
        | sweepNext q k' =>
          rcases hcase q k' hb with ⟨hqp, hql, hbot⟩ | ⟨rfl, hk⟩
          · exact .inl ⟨(List.mem_erase_of_ne hqp).2 hql, hbot⟩
          · refine .inr ⟨ha.nd.not_mem_erase, hk, ?_⟩
            rw [if_pos hpl, upd_same]
            exact (after_erase_self ha.nd hpl).2
        | _ => trivial
      · intro x hx
        have hx' : x ∈ s.req ∧ x ≠ p := by simpa [unlink] using hx
        obtain ⟨r1, r2, r3⟩ := h.rq x hx'.1
        refine ⟨r1, (List.mem_erase_of_ne hx'.2).2 r2, ?_⟩
        rcases r3 with r | r | r
        · exact .inl r
        · exact .inr (.inl r)
        · exact .inr (.inr (hah x r hx'.2))
      · intro x hx
        have hx' : x ∈ s.due ∧ x ≠ p := by simpa [unlink] using hx
        obtain ⟨r1, r2⟩ := h.du x hx'.1
        refine ⟨hah x r1 hx'.2, ?_⟩
        simpa [unlink] using ⟨r2, hx'.2⟩
  | restore c =>
    refine swept_stack h rfl rfl rfl rfl rfl rfl rfl rfl ?_ (fun hx => absurd hx hne)
    intro q _ _ _ hb
    rw [hu] at hb
    exact bot_pop hb

/-- A sweep begins. -/
theorem swept_start {s : St} (k : After) (h : Swept s) (hu : s.up = []) : Swept (sweepStart k s) := by
  have ha : ahead (sweepStart k s) = s.list := by simp [ahead, sweepStart, tail_head]
  refine ⟨?_, ?_, ?_⟩
  · unfold Place
    simp only [sweepStart]
    exact ⟨hu, fun r hr => List.mem_of_mem_head? hr⟩
  · intro p hp
    obtain ⟨h1, h2, _⟩ := h.rq p hp
    exact ⟨h1, h2, .inr (.inr (by rw [ha]; exact h2))⟩
  · intro p hp
    rw [ha]
    exact ⟨(h.rq p hp).2.1, hp⟩

/-- The base moves on outside of a sweep. -/
theorem swept_base {s t : St} (h : Swept s) (ha : ahead s = []) (hp : Place t) (h1 : t.list = s.list)
    (h4 : t.req = s.req) (h5 : t.due = s.due) (h6 : t.needs = s.needs)
    (h7 : t.gpoll = s.gpoll) (h8 : t.pend1 = s.pend1) : Swept t := by
  refine ⟨hp, ?_, ?_⟩
  · intro p hp
    rw [h4] at hp
    obtain ⟨r1, r2, r3⟩ := h.rq p hp
    rw [ha] at r3
    rw [h6, h1, h7, h8]
    refine ⟨r1, r2, ?_⟩
    rcases r3 with r | r | r
    · exact .inl r
    · exact .inr (.inl r)
    · cases r
  · intro p hp
    rw [h5] at hp
    have := (h.du p hp).1
    rw [ha] at this
    cases this

theorem swept_tickBase {s : St} (h : Swept s) (ha : Agree s) (hu : s.up = []) : Swept (tickBase s) := by
  have hpl := h.place
  unfold Place at hpl
  unfold tickBase
  cases hb : s.base with
  | idle => exact h
  | event =>
    have hah : ahead s = [] := by simp [ahead, hb]
    simp only
    cases hq : s.queue with
    | nil => exact swept_base h hah trivial rfl rfl rfl rfl rfl rfl
    | cons e q =>
      simp only
      cases he : e.p with
      | none => exact swept_base h hah trivial rfl rfl rfl rfl rfl rfl
      | some r => exact swept_base h hah trivial rfl rfl rfl rfl rfl rfl
  | sweep q k =>
    rw [hb] at hpl
    cases q with
    | none =>
      have hah : ahead s = [] := by simp [ahead, hb, tailFrom]
      cases k with
      | event => exact swept_base h hah trivial rfl rfl rfl rfl rfl rfl
      | bcast q ev d => exact swept_base h hah trivial rfl rfl rfl rfl rfl rfl
    | some q =>
      have hql : q ∈ s.list := hpl.2 q rfl
      have hah : ∀ x ∈ ahead s, x ≠ q → x ∈ tailFrom s.list (succ s.list q) := by
        intro x hx hxq
        simp only [ahead, hb] at hx
        rcases tail_split ha.nd hql hx with h' | h'
        · exact absurd h' hxq
        · exact h'
      simp only
      split
      · refine ⟨?_, ?_, ?_⟩
        · exact .inl ⟨hql, .inr (.inl ⟨_, _, rfl⟩)⟩
        · intro x hx
          have hx' : x ∈ s.req ∧ x ≠ q := by simpa using hx
          obtain ⟨r1, r2, r3⟩ := h.rq x hx'.1
          refine ⟨by simpa [upd_other _ _ hx'.2] using r1, r2, ?_⟩
          rcases r3 with r | r | r
          · exact .inl r
          · exact .inr (.inl r)
          · refine .inr (.inr ?_)
            simp only [ahead, St.next, if_pos hql]
            exact hah x r hx'.2
        · intro x hx
          have hx' : x ∈ s.due ∧ x ≠ q := by simpa using hx
          obtain ⟨r1, r2⟩ := h.du x hx'.1
          refine ⟨?_, by simpa using ⟨r2, hx'.2⟩⟩
          simp only [ahead, St.next, if_pos hql]
          exact hah x r1 hx'.2
      · rename_i hn
        have hq : q ∉ s.req := fun hx => hn (h.rq q hx).1
        refine ⟨?_, ?_, ?_⟩
        · exact .inl ⟨hql, .inl hu⟩
        · intro x hx
          obtain ⟨r1, r2, r3⟩ := h.rq x hx
          refine ⟨r1, r2, ?_⟩
          rcases r3 with r | r | r
          · exact .inl r
          · exact .inr (.inl r)
          · refine .inr (.inr ?_)
            simp only [ahead, St.next, if_pos hql]
            exact hah x r (fun he => hq (he ▸ hx))
        · intro x hx
          obtain ⟨r1, r2⟩ := h.du x hx
          refine ⟨?_, r2⟩
          simp only [ahead, St.next, if_pos hql]
          exact hah x r1 (fun he => hq (he ▸ r2))
  | sweepNext q k =>
    rw [hb] at hpl
    have hah : ahead { s with base := .sweep (s.next q) k } = ahead s := by
      simp [ahead, hb]
    refine ⟨?_, ?_, ?_⟩
    · refine ⟨hu, fun r hr => ?_⟩
      simp only [St.next] at hr
      split at hr
      · exact succ_mem hr
      · rename_i hq
        rcases hpl with h' | h'
        · exact absurd h'.1 hq
        · exact h'.2.2 r hr
    · rw [hah]; exact h.rq
    · rw [hah]; exact h.du
  | bcast q ev d =>
    have hah : ahead s = [] := by simp [ahead, hb]
    cases q with
    | none => exact swept_base h hah trivial rfl rfl rfl rfl rfl rfl
    | some q =>
      simp only
      split
      · exact swept_start _ h hu
      · exact swept_base h hah trivial rfl rfl rfl rfl rfl rfl
  | bcastNext q ev d =>
    have hah : ahead s = [] := by simp [ahead, hb]
    exact swept_base h hah trivial rfl rfl rfl rfl rfl rfl

/-- While code that can act runs above a sweep, it belongs to the call of the sweep. -/
theorem open_own {s : St} (ho : s.open = true) {q : Pid} (hb : Bot q s.up) (hi : s.base ≠ .idle) :
    s.up ≠ [] ∧ ∃ g, s.up.getLast? = some g ∧ Own q g := by
  unfold St.open at ho
  rcases hb with hb | ⟨ev, d, hb⟩ | hb
  · rw [hb] at ho
    simp [hi] at ho
  · rw [hb] at ho
    cases ho
  · refine ⟨fun hx => ?_, hb⟩
    rw [hx] at hb
    obtain ⟨g, h1, _⟩ := hb
    cases h1

theorem open_nil {s : St} (ho : s.open = true) (hu : s.up = []) : s.base = .idle := by
  unfold St.open at ho
  rw [hu] at ho
  simpa using ho

theorem swept_req {s : St} {p : Pid} (h : Swept s) (n : Pid → Bool) (hn : ∀ q, s.needs q = true → n q = true)
    (hp : n p = true) (g : Bool) (hg : s.gpoll = true → g = true) (pd : List Pid)
    (hpd : ∀ q ∈ s.pend1, q ∈ pd) (hor : g = true ∨ p ∈ pd) {t : St} (h1 : t.list = s.list)
    (h2 : t.old = s.old) (h3 : t.base = s.base) (h4 : t.req = if p ∈ s.list then p :: s.req else s.req)
    (h5 : t.due = s.due) (h6 : t.needs = n) (h7 : t.gpoll = g) (h8 : t.pend1 = pd) (h9 : t.up = s.up) :
    Swept t := by
  have ha : ahead t = ahead s := by
    unfold ahead St.next
    rw [h1, h2, h3]
  have hreq : ∀ x, x ∈ s.req → x ∈ t.req := by
    intro x hx
    rw [h4]
    split
    · exact List.mem_cons_of_mem _ hx
    · exact hx
  refine ⟨?_, ?_, ?_⟩
  · have := h.place
    unfold Place at this ⊢
    rw [h3, h1, h2, h9]
    exact this
  · intro x hx
    rw [h6, h1, h7, h8, ha]
    by_cases hs : x ∈ s.req
    · obtain ⟨r1, r2, r3⟩ := h.rq x hs
      refine ⟨hn x r1, r2, ?_⟩
      rcases r3 with r | r | r
      · exact .inl (hg r)
      · exact .inr (.inl (hpd x r))
      · exact .inr (.inr r)
    · rw [h4] at hx
      split at hx
      · rename_i hl
        rcases List.mem_cons.1 hx with he | he
        · subst he
          refine ⟨hp, hl, ?_⟩
          rcases hor with r | r
          · exact .inl r
          · exact .inr (.inl r)
        · exact absurd he hs
      · exact absurd hx hs
  · intro x hx
    rw [h5] at hx
    rw [ha]
    exact ⟨(h.du x hx).1, hreq x (h.du x hx).2⟩

theorem swept_exitEnter {s : St} {p : Pid} {c : Option Pid} (h : Swept s)
    (hb : ∀ q k, s.base = .sweepNext q k → q ∈ s.list → Bot q s.up →
      ∀ st, p ∈ s.list → Bot q (.exiting p c s.cur st :: s.up))
    (hi : s.up = [] → ∀ q k, s.base ≠ .sweep q k)
    (hj : s.up = [] → ∀ q k, s.base = .sweepNext q k → q ∈ s.list) :
    Swept (exitEnter p c s) := by
  have key : ∀ (st : Stage) (f : Pid → PSt), p ∈ s.list →
      Swept { s with state := f, up := .exiting p c s.cur st :: s.up } := by
    intro st f hl
    have ha : ahead { s with state := f, up := .exiting p c s.cur st :: s.up } = ahead s := rfl
    refine ⟨?_, by rw [ha]; exact h.rq, by rw [ha]; exact h.du⟩
    have hpl := h.place
    unfold Place at hpl ⊢
    cases hbase : s.base with
    | sweep q k =>
      rw [hbase] at hpl
      exact absurd hbase (hi hpl.1 q k)
    | sweepNext q k =>
      rw [hbase] at hpl
      rcases hpl with ⟨h1, h2⟩ | ⟨h1, h2, _⟩
      · exact .inl ⟨h1, hb q k hbase h1 h2 st hl⟩
      · exact absurd (hj h2 q k hbase) h1
    | _ => trivial
  unfold exitEnter
  split
  · exact h
  · rename_i hl
    split
    · exact key _ s.state (Classical.not_not.1 hl)
    · exact key _ _ (Classical.not_not.1 hl)

theorem swept_ret {s : St} (b : Bool) (h : Swept s) :
    Swept (ret b s) := by
  have hsw : s.up ≠ [] → ∀ q k, s.base ≠ .sweep q k := by
    intro hu q k hb
    have := h.place
    unfold Place at this
    rw [hb] at this
    exact hu this.1
  unfold ret
  split
  · rename_i p ev d k hu
    have hne : s.up ≠ [] := by rw [hu]; simp
    -- popping the frame keeps the place if the process stays on the list
    have hpop : Swept { s with up := k } := by
      refine swept_stack h rfl rfl rfl rfl rfl rfl rfl rfl ?_ (fun hx => absurd hx hne)
      intro q _ _ _ hb
      rw [hu] at hb
      exact bot_pop hb
    have hown : ∀ q k', s.base = .sweepNext q k' → q ∈ s.list ∧ Bot q s.up := by
      intro q k' hb
      have := h.place
      unfold Place at this
      rw [hb] at this
      rcases this with h' | h'
      · exact h'
      · exact absurd h'.2.1 hne
    split
    · refine swept_exitEnter hpop ?_ (fun _ => hsw hne) (fun _ q k' hb => (hown q k' hb).1)
      intro q k' hb _ _ st _
      obtain ⟨_, hbot⟩ := hown q k' hb
      rw [hu] at hbot
      simp only
      exact bot_replace hbot (fun hx => hx) (by intro ev d hx; cases hx)
    · exact swept_stack hpop rfl rfl rfl rfl rfl rfl rfl rfl (fun _ _ _ _ hb => hb) (fun hx => .inl hx)
  · rename_i p k hu
    have hne : s.up ≠ [] := by rw [hu]; simp
    refine swept_stack h rfl rfl rfl rfl rfl rfl rfl rfl ?_ (fun hx => absurd hx hne)
    intro q _ _ _ hb
    rw [hu] at hb
    exact bot_pop hb
  · exact h

theorem swept_act {s : St} {a : Act} (h : Swept s) (ha : Agree s) (ho : s.open = true) :
    Swept (act s a) := by
  have hpush : ∀ f q k, s.base = .sweepNext q k → q ∈ s.list → Bot q s.up → Bot q (f :: s.up) := by
    intro f q k hb _ hbot
    obtain ⟨h1, h2⟩ := open_own ho hbot (by rw [hb]; simp)
    exact bot_push h1 h2
  have hidle : s.up = [] → s.base = .idle := open_nil ho
  have hsw : ∀ q k, s.base ≠ .sweep q k := by
    intro q k hb
    have := h.place
    unfold Place at this
    rw [hb] at this
    rw [hidle this.1] at hb
    cases hb
  cases a with
  | post e => exact swept_stack h rfl rfl rfl rfl rfl rfl rfl rfl (fun _ _ _ _ hb => hb) (fun hx => .inl hx)
  | sync p ev d =>
    refine swept_stack h rfl rfl rfl rfl rfl rfl rfl rfl ?_ (fun hx => .inr (hidle hx))
    intro q k hb hq hbot
    have h1 := hpush (.restore s.cur) q k hb hq hbot
    exact bot_push (by simp) (bot_own h1 (by intro ev d hx; cases hx))
  | poll p =>
    simp only [act, poll]
    split
    · exact h
    · refine swept_req (p := p) h (upd s.needs p true) ?_ (upd_same _ _ _) true (fun _ => rfl) s.pend1
        (fun _ hq => hq) (.inl rfl) rfl rfl rfl rfl rfl rfl rfl rfl rfl
      intro q hq
      by_cases hqp : q = p
      · subst hqp; simp [upd_same]
      · simpa [upd_other _ _ hqp] using hq
  | exit p =>
    refine swept_exitEnter h (fun q k hb hq hbot st _ => hpush _ q k hb hq hbot) (fun _ => hsw) ?_
    intro hu q k hb
    rw [hidle hu] at hb
    cases hb
  | start p d =>
    simp only [act, start]
    split
    · exact h
    · rename_i hl
      have hpl := h.place
      unfold Place at hpl
      have hq : ∀ q k, s.base = .sweepNext q k → q ∈ s.list ∧ Bot q s.up := by
        intro q k hb
        rw [hb] at hpl
        rcases hpl with h' | h'
        · exact h'
        · rw [hidle h'.2.1] at hb
          cases hb
      have hah : ∀ up st, ahead { s with list := p :: s.list, state := st, up := up } = ahead s := by
        intro up st
        unfold ahead
        simp only
        cases hb : s.base with
        | sweep q k => exact absurd hb (hsw q k)
        | sweepNext q k =>
          simp only [St.next]
          have hqp : p ≠ q := fun he => hl (he ▸ (hq q k hb).1)
          rw [if_pos (hq q k hb).1, if_pos (List.mem_cons_of_mem _ (hq q k hb).1),
            after_cons_ne (by simpa using ⟨hl, ha.nd⟩) hqp]
        | _ => rfl
      refine ⟨?_, ?_, ?_⟩
      · unfold Place
        cases hb : s.base with
        | sweep q k => exact absurd hb (hsw q k)
        | sweepNext q k =>
          refine .inl ⟨List.mem_cons_of_mem _ (hq q k hb).1, ?_⟩
          have h1 := hpush (.restore s.cur) q k hb (hq q k hb).1 (hq q k hb).2
          exact bot_push (by simp) (bot_own h1 (by intro ev d hx; cases hx))
        | _ => trivial
      · intro x hx
        obtain ⟨r1, r2, r3⟩ := h.rq x hx
        rw [hah]
        exact ⟨r1, List.mem_cons_of_mem _ r2, r3⟩
      · intro x hx
        rw [hah]
        exact h.du x hx
  | ret b => exact swept_ret b h
  | run =>
    simp only [act]
    split
    · rename_i hu
      unfold runStart
      split
      · exact swept_start _ h hu.1
      · have hah : ahead s = [] := by simp [ahead, hu.2]
        exact swept_base h hah trivial rfl rfl rfl rfl rfl rfl
    · exact h

/-- Everything. -/
structure Good (s : St) : Prop where
  agree : Agree s
  swept : Swept s
  noInit : NoInit s
  fifo : s.taken ++ s.queue = s.posted

theorem queue_tickFr (s : St) (f : Fr) (k : List Fr) :
    (tickFr s f k).queue = s.queue ∧ (tickFr s f k).taken = s.taken ∧ (tickFr s f k).posted = s.posted := by
  unfold tickFr
  split
  · split <;> exact ⟨rfl, rfl, rfl⟩
  · exact ⟨rfl, rfl, rfl⟩
  · exact ⟨rfl, rfl, rfl⟩
  · split
    · exact ⟨rfl, rfl, rfl⟩
    · split <;> exact ⟨rfl, rfl, rfl⟩
    · exact ⟨rfl, rfl, rfl⟩
    · split <;> exact ⟨rfl, rfl, rfl⟩
    · exact ⟨rfl, rfl, rfl⟩
  · exact ⟨rfl, rfl, rfl⟩

theorem queue_tickBase (s : St) :
    ((tickBase s).queue = s.queue ∧ (tickBase s).taken = s.taken ∨
      ∃ e, s.queue = e :: (tickBase s).queue ∧ (tickBase s).taken = s.taken ++ [e]) ∧
    (tickBase s).posted = s.posted := by
  unfold tickBase
  cases s.base with
  | event =>
    simp only
    cases hq : s.queue with
    | nil => exact ⟨.inl ⟨rfl, rfl⟩, rfl⟩
    | cons e q =>
      simp only
      cases e.p with
      | none => exact ⟨.inr ⟨e, rfl, rfl⟩, rfl⟩
      | some r => exact ⟨.inr ⟨e, rfl, rfl⟩, rfl⟩
  | idle => exact ⟨.inl ⟨rfl, rfl⟩, rfl⟩
  | sweep q k =>
    cases q with
    | none => cases k <;> exact ⟨.inl ⟨rfl, rfl⟩, rfl⟩
    | some q => simp only; split <;> exact ⟨.inl ⟨rfl, rfl⟩, rfl⟩
  | sweepNext q k => exact ⟨.inl ⟨rfl, rfl⟩, rfl⟩
  | bcast q ev d =>
    cases q with
    | none => exact ⟨.inl ⟨rfl, rfl⟩, rfl⟩
    | some q => simp only; split <;> exact ⟨.inl ⟨rfl, rfl⟩, rfl⟩
  | bcastNext q ev d => exact ⟨.inl ⟨rfl, rfl⟩, rfl⟩

theorem queue_exitEnter (p : Pid) (c : Option Pid) (s : St) :
    (exitEnter p c s).queue = s.queue ∧ (exitEnter p c s).taken = s.taken ∧
      (exitEnter p c s).posted = s.posted := by
  unfold exitEnter
  split
  · exact ⟨rfl, rfl, rfl⟩
  · split <;> exact ⟨rfl, rfl, rfl⟩

theorem queue_act (s : St) (a : Act) :
    (∃ e, a = .post e ∧ (act s a).queue = s.queue ++ [e] ∧ (act s a).taken = s.taken ∧
      (act s a).posted = s.posted ++ [e]) ∨
    ((act s a).queue = s.queue ∧ (act s a).taken = s.taken ∧ (act s a).posted = s.posted) := by
  cases a with
  | post e => exact .inl ⟨e, rfl, rfl, rfl, rfl⟩
  | sync p ev d => exact .inr ⟨rfl, rfl, rfl⟩
  | poll p => right; simp only [act, poll]; split <;> exact ⟨rfl, rfl, rfl⟩
  | exit p => exact .inr (queue_exitEnter p s.cur s)
  | start p d => right; simp only [act, start]; split <;> exact ⟨rfl, rfl, rfl⟩
  | ret b =>
    right
    simp only [act, ret]
    split
    · split
      · exact queue_exitEnter _ _ _
      · exact ⟨rfl, rfl, rfl⟩
    · exact ⟨rfl, rfl, rfl⟩
    · exact ⟨rfl, rfl, rfl⟩
  | run =>
    right
    simp only [act]
    split
    · unfold runStart
      split <;> exact ⟨rfl, rfl, rfl⟩
    · exact ⟨rfl, rfl, rfl⟩

theorem good_step {s : St} {op : Op} (h : Good s) (hf : Fine s op) : Good (step s op) := by
  obtain ⟨ha, hs, hn, hq⟩ := h
  cases op with
  | act a =>
    simp only [step]
    split
    · rename_i ho
      refine ⟨agree_act ha hf, swept_act hs ha ho, ?_, ?_⟩
      · rcases queue_act s a with ⟨e, he, h1, _⟩ | ⟨h1, _⟩
        · subst he
          intro x hx
          rw [h1] at hx
          rcases List.mem_append.1 hx with hx | hx
          · exact hn x hx
          · simp at hx
            subst hx
            exact hf
        · intro x hx
          rw [h1] at hx
          exact hn x hx
      · rcases queue_act s a with ⟨e, _, h1, h2, h3⟩ | ⟨h1, h2, h3⟩
        · rw [h1, h2, h3, ← List.append_assoc, hq]
        · rw [h1, h2, h3, hq]
    · exact ⟨ha, hs, hn, hq⟩
  | tick =>
    simp only [step, tick]
    cases hu : s.up with
    | nil =>
      simp only
      obtain ⟨h1, h2⟩ := queue_tickBase s
      refine ⟨agree_tickBase ha hu hn (sweepTop_of hs.place), swept_tickBase hs ha hu, ?_, ?_⟩
      · intro x hx
        rcases h1 with ⟨h1, _⟩ | ⟨e, h1, _⟩
        · rw [h1] at hx; exact hn x hx
        · exact hn x (by rw [h1]; exact List.mem_cons_of_mem _ hx)
      · rw [h2]
        rcases h1 with ⟨h1, h3⟩ | ⟨e, h1, h3⟩
        · rw [h1, h3, hq]
        · rw [h3, ← hq, h1]
          simp
    | cons f k =>
      simp only
      obtain ⟨h1, h2, h3⟩ := queue_tickFr s f k
      refine ⟨agree_tickFr ha hu, swept_tickFr hs ha hu, ?_, ?_⟩
      · intro x hx
        rw [h1] at hx
        exact hn x hx
      · rw [h1, h2, h3, hq]
  | poll0 p =>
    simp only [step]
    split
    · exact ⟨ha, hs, hn, hq⟩
    · exact ⟨agree_call ha s.up rfl rfl ha.wf rfl rfl rfl,
        swept_stack hs rfl rfl rfl rfl rfl rfl rfl rfl (fun _ _ _ _ hb => hb) (fun hx => .inl hx), hn, hq⟩
  | poll1 p =>
    simp only [step]
    split
    · refine ⟨agree_call ha s.up rfl rfl ha.wf rfl rfl rfl, ?_, hn, hq⟩
      refine swept_req (p := p) hs (upd s.needs p true) ?_ (upd_same _ _ _) s.gpoll (fun h => h) (p :: s.pend1)
        (fun q hq => List.mem_cons_of_mem _ hq) (.inr (by simp)) rfl rfl rfl rfl rfl rfl rfl rfl rfl
      intro q hq
      by_cases hqp : q = p
      · subst hqp; simp [upd_same]
      · simpa [upd_other _ _ hqp] using hq
    · exact ⟨ha, hs, hn, hq⟩
  | poll2 p =>
    simp only [step]
    split
    · refine ⟨agree_call ha s.up rfl rfl ha.wf rfl rfl rfl, ⟨hs.place, ?_, hs.du⟩, hn, hq⟩
      intro x hx
      obtain ⟨r1, r2, _⟩ := hs.rq x hx
      exact ⟨r1, r2, .inl rfl⟩
    · exact ⟨ha, hs, hn, hq⟩

theorem good_run : ∀ (ops : List Op) (s : St), Good s → FineRun s ops → Good (run s ops) := by
  intro ops
  induction ops with
  | nil => intro s h _; exact h
  | cons op ops ih =>
    intro s h hf
    exact ih _ (good_step h hf.1) hf.2

theorem good_init : Good {} := by
  refine ⟨⟨by simp, by simp [threads], by simp [exitings], trivial, ?_, ?_, ?_, ?_⟩,
    ⟨trivial, by simp, by simp⟩, by simp [NoInit], rfl⟩
  · intro p; simp [threads]
  · intro p hp; simp at hp
  · intro p hp; simp at hp
  · intro p hp; simp [exitings] at hp

end Verif.Process.Dispatch
