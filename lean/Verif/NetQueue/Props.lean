import Verif.NetQueue.Lemmas

/-! Properties of the queue of received messages. -/

namespace Verif.NetQueue

/-- The reads a thread may still do. -/
def allowed : TPc → Nat
  | .work k => k
  | _ => 0

/-- A wake-up of the device is still to be sent by the main loop. -/
def mainWakes (cap d : Nat) : MPc → Prop
  | .took b => cap ≤ count d b
  | .wake _ l => d ∈ l
  | _ => False

/-- What holds at every moment. -/
structure Inv (cap n : Nat) (s : St) : Prop where
  bound : ∀ d, count d s.queue + allowed (s.th d).pc ≤ cap
  devs : ∀ m ∈ held s ++ s.queue, m.dev < n
  wake : ∀ d, deaf (s.th d) → cap ≤ count d s.queue ∨ d ∈ s.sig ∨ mainWakes cap d s.main
  req : s.queue ≠ [] → s.need = true ∨ s.main = .polled ∨ ∃ d, d < n ∧ (s.th d).post = true
  off : ∀ d, n ≤ d → (s.th d).pc = .check ∧ (s.th d).post = false
  order : (s.delivered ++ held s ++ s.queue).Sublist s.got
  perm : s.got.Perm (s.delivered ++ held s ++ s.queue ++ s.dropped)

theorem inv_start (cap n : Nat) : Inv cap n start :=
  ⟨fun _ => Nat.zero_le _, (fun _ h => by cases h), (fun _ h => by cases h.1), fun h => absurd rfl h,
    fun _ _ => ⟨rfl, rfl⟩, List.Sublist.refl _, List.Perm.refl _⟩

/-- Only one thread has changed, and not its permission to read. -/
theorem inv_th (cap n : Nat) (s : St) (h : Inv cap n s) (d : Nat) (t : Th) (hd : d < n ∨ (t.pc = (s.th d).pc ∧ t.post = (s.th d).post))
    (hb : count d s.queue + allowed t.pc ≤ cap) (hp : (s.th d).post = true → t.post = true)
    (hw : deaf t → cap ≤ count d s.queue ∨ d ∈ s.sig ∨ mainWakes cap d s.main) : Inv cap n (s.setTh d t) := by
  refine ⟨?_, h.devs, ?_, ?_, ?_, h.order, h.perm⟩
  · intro e
    rw [setTh_th]
    by_cases he : e = d
    · subst he; rw [if_pos rfl]; exact hb
    · rw [if_neg he]; exact h.bound e
  · intro e
    rw [setTh_th]
    by_cases he : e = d
    · subst he; rw [if_pos rfl]; exact hw
    · rw [if_neg he]; exact h.wake e
  · intro hq
    rcases h.req hq with h1 | h1 | ⟨e, he, h1⟩
    · exact Or.inl h1
    · exact Or.inr (Or.inl h1)
    · refine Or.inr (Or.inr ⟨e, he, ?_⟩)
      rw [setTh_th]
      by_cases hed : e = d
      · subst hed; rw [if_pos rfl]; exact hp h1
      · rw [if_neg hed]; exact h1
  · intro e he
    rw [setTh_th]
    by_cases hed : e = d
    · subst hed
      rw [if_pos rfl]
      rcases hd with hd | ⟨h1, h2⟩
      · omega
      · rw [h1, h2]; exact h.off e he
    · rw [if_neg hed]; exact h.off e he

theorem main_inv (cap n : Nat) (hc : 0 < cap) (s t : St) (h : Inv cap n s) (hs : mainStep cap n s = some t) : Inv cap n t := by
  obtain ⟨hb, hdv, hw, hr, ho, hor, hpm⟩ := h
  unfold mainStep at hs
  cases hm : s.main with
  | idle =>
    rw [hm] at hs
    dsimp only at hs
    split at hs
    · cases hs
      have hh : held s = [] := by unfold held; rw [hm]
      rw [hh] at hdv hor hpm
      refine ⟨hb, hdv, ?_, fun _ => Or.inr (Or.inl rfl), ho, hor, hpm⟩
      intro d hd
      rcases hw d hd with h | h | h
      · exact Or.inl h
      · exact Or.inr (Or.inl h)
      · rw [hm] at h; exact h.elim
    · cases hs
  | polled =>
    rw [hm] at hs
    dsimp only at hs
    cases hs
    have hh : held s = [] := by unfold held; rw [hm]
    rw [hh] at hdv hor hpm
    rw [List.append_nil] at hor hpm
    refine ⟨?_, ?_, ?_, fun h => absurd rfl h, ho, ?_, ?_⟩
    · intro d
      have := hb d
      show 0 + allowed (s.th d).pc ≤ cap
      omega
    · intro m hmm
      exact hdv m (by simpa [held] using hmm)
    · intro d hd
      rcases hw d hd with h | h | h
      · exact Or.inr (Or.inr h)
      · exact Or.inr (Or.inl h)
      · rw [hm] at h; exact h.elim
    · show (s.delivered ++ s.queue ++ []).Sublist s.got
      rw [List.append_nil]; exact hor
    · show s.got.Perm (s.delivered ++ s.queue ++ [] ++ s.dropped)
      rw [List.append_nil]; exact hpm
  | took b =>
    rw [hm] at hs
    dsimp only at hs
    have hh : held s = b := by unfold held; rw [hm]
    rw [hh] at hdv hor hpm
    obtain ⟨l, hl, hmem, _⟩ := wakeLoop_spec cap n hc b (fun m hmm => hdv m (List.mem_append_left _ hmm)) n 0 (Nat.le_refl _)
    rw [tail_zero] at hl
    rw [hl] at hs
    cases hs
    refine ⟨hb, hdv, ?_, ?_, ho, hor, hpm⟩
    · intro d hd
      rcases hw d hd with h | h | h
      · exact Or.inl h
      · exact Or.inr (Or.inl h)
      · rw [hm] at h
        exact Or.inr (Or.inr ((hmem d).2 ⟨Nat.zero_le _, h⟩))
    · intro hq
      rcases hr hq with h1 | h1 | h1
      · exact Or.inl h1
      · rw [hm] at h1; cases h1
      · exact Or.inr (Or.inr h1)
  | wake b l =>
    rw [hm] at hs
    have hh : held s = b := by unfold held; rw [hm]
    rw [hh] at hdv hor hpm
    have hr' : s.queue ≠ [] → s.need = true ∨ ∃ d, d < n ∧ (s.th d).post = true := by
      intro hq
      rcases hr hq with h1 | h1 | h1
      · exact Or.inl h1
      · rw [hm] at h1; cases h1
      · exact Or.inr h1
    cases l with
    | nil =>
      cases hs
      refine ⟨hb, hdv, ?_, fun hq => (hr' hq).imp id Or.inr, ho, hor, hpm⟩
      intro d hd
      rcases hw d hd with h | h | h
      · exact Or.inl h
      · exact Or.inr (Or.inl h)
      · rw [hm] at h; cases h
    | cons d l =>
      cases hs
      refine ⟨?_, hdv, ?_, ?_, ?_, hor, hpm⟩
      · intro e
        show count e s.queue + allowed ((s.setTh d _).th e).pc ≤ cap
        rw [setTh_th]
        by_cases he : e = d
        · subst he; rw [if_pos rfl]; exact hb e
        · rw [if_neg he]; exact hb e
      · intro e
        show deaf ((s.setTh d _).th e) → _
        rw [setTh_th]
        by_cases he : e = d
        · subst he; rw [if_pos rfl]; intro hd; exact absurd hd.2 (Nat.succ_ne_zero _)
        · rw [if_neg he]
          intro hd
          rcases hw e hd with h | h | h
          · exact Or.inl h
          · exact Or.inr (Or.inl h)
          · rw [hm] at h
            exact Or.inr (Or.inr ((List.mem_cons.1 h).resolve_left he))
      · intro hq
        rcases hr' hq with h1 | ⟨e, he, h1⟩
        · exact Or.inl h1
        · refine Or.inr (Or.inr ⟨e, he, ?_⟩)
          show ((s.setTh d _).th e).post = true
          rw [setTh_th]
          by_cases hed : e = d
          · subst hed; rw [if_pos rfl]; exact h1
          · rw [if_neg hed]; exact h1
      · intro e he
        show ((s.setTh d _).th e).pc = _ ∧ ((s.setTh d _).th e).post = _
        rw [setTh_th]
        by_cases hed : e = d
        · subst hed; rw [if_pos rfl]; exact ho e he
        · rw [if_neg hed]; exact ho e he
  | hand b =>
    rw [hm] at hs
    have hh : held s = b := by unfold held; rw [hm]
    rw [hh] at hdv hor hpm
    have hr' : s.queue ≠ [] → s.need = true ∨ ∃ d, d < n ∧ (s.th d).post = true := by
      intro hq
      rcases hr hq with h1 | h1 | h1
      · exact Or.inl h1
      · rw [hm] at h1; cases h1
      · exact Or.inr h1
    have hw' : ∀ d, deaf (s.th d) → cap ≤ count d s.queue ∨ d ∈ s.sig ∨ False := by
      intro d hd
      have := hw d hd
      rw [hm] at this
      exact this
    cases b with
    | nil =>
      cases hs
      exact ⟨hb, hdv, hw', fun hq => (hr' hq).imp id Or.inr, ho, hor, hpm⟩
    | cons m b =>
      cases hs
      refine ⟨hb, ?_, hw', fun hq => (hr' hq).imp id Or.inr, ho, ?_, ?_⟩
      · intro x hx
        exact hdv x (List.mem_cons_of_mem m hx)
      · show (s.delivered ++ [m] ++ b ++ s.queue).Sublist s.got
        simpa using hor
      · show s.got.Perm (s.delivered ++ [m] ++ b ++ s.queue ++ s.dropped)
        simpa using hpm

theorem step_inv (cap n : Nat) (hc : 0 < cap) (s t : St) (a : Act) (h : Inv cap n s) (hs : step cap n s a = some t) : Inv cap n t := by
  cases a with
  | main => exact main_inv cap n hc s t h hs
  | check d =>
    unfold step at hs
    dsimp only at hs
    split at hs
    · rename_i hd
      cases hs
      refine inv_th cap n s h d _ (Or.inl hd.1) ?_ id ?_
      · have := h.bound d
        rw [hd.2] at this
        split <;> exact this
      · intro hdf
        have h1 := hdf.1
        replace h1 : (if count d s.queue ≥ cap then TPc.full else TPc.all) = .full := h1
        split at h1
        · rename_i hq; exact Or.inl hq
        · cases h1
    · cases hs
  | select d ready control =>
    unfold step at hs
    dsimp only at hs
    split at hs
    · rename_i hd
      have hbd := h.bound d
      cases hpc : (s.th d).pc with
      | full =>
        rw [hpc] at hs hbd
        dsimp only at hs
        split at hs
        · cases hs
          exact inv_th cap n s h d _ (Or.inl hd) hbd id (fun h => by cases h.1)
        · cases hs
      | all =>
        rw [hpc] at hs hbd
        dsimp only at hs
        split at hs
        · cases hs
          refine inv_th cap n s h d _ (Or.inl hd) ?_ id (fun h => by cases h.1)
          show count d s.queue + min ready (cap - count d s.queue) ≤ cap
          have : count d s.queue ≤ cap := hbd
          omega
        · cases hs
      | check => rw [hpc] at hs; cases hs
      | work k => rw [hpc] at hs; cases hs
    · cases hs
  | recv d m valid =>
    unfold step at hs
    dsimp only at hs
    split at hs
    · rename_i hd
      have hbd := h.bound d
      cases hpc : (s.th d).pc with
      | full => rw [hpc] at hs; cases hs
      | all => rw [hpc] at hs; cases hs
      | check => rw [hpc] at hs; cases hs
      | work k =>
        rw [hpc] at hs hbd
        cases k with
        | zero => cases hs
        | succ k =>
          dsimp only at hs
          replace hbd : count d s.queue + (k + 1) ≤ cap := hbd
          split at hs
          · cases hs
            refine ⟨?_, ?_, ?_, ?_, ?_, ?_, ?_⟩
            · intro e
              show count e (s.queue ++ [_]) + allowed ((s.setTh d _).th e).pc ≤ cap
              rw [count_append, count_one, setTh_th]
              by_cases he : e = d
              · subst he; rw [if_pos rfl, if_pos rfl]
                show count e s.queue + 1 + k ≤ cap
                omega
              · rw [if_neg he, if_neg (fun x => he x.symm)]; exact h.bound e
            · intro x hx
              replace hx : x ∈ held s ++ (s.queue ++ [{ m with dev := d }]) := hx
              rw [← List.append_assoc] at hx
              rcases List.mem_append.1 hx with hx | hx
              · exact h.devs x hx
              · rw [List.mem_singleton] at hx
                subst hx
                exact hd.1
            · intro e
              show deaf ((s.setTh d _).th e) → _
              rw [setTh_th]
              by_cases he : e = d
              · subst he; rw [if_pos rfl]; intro hdf; cases hdf.1
              · rw [if_neg he]
                intro hdf
                rcases h.wake e hdf with h1 | h1
                · refine Or.inl ?_
                  show cap ≤ count e (s.queue ++ [_])
                  rw [count_append]
                  omega
                · exact Or.inr h1
            · intro _
              refine Or.inr (Or.inr ⟨d, hd.1, ?_⟩)
              show ((s.setTh d _).th d).post = true
              rw [setTh_th, if_pos rfl]
            · intro e he
              show ((s.setTh d _).th e).pc = _ ∧ ((s.setTh d _).th e).post = _
              rw [setTh_th, if_neg (by omega)]
              exact h.off e he
            · show (s.delivered ++ held s ++ (s.queue ++ [_])).Sublist (s.got ++ [_])
              rw [← List.append_assoc]
              exact List.Sublist.append h.order (List.Sublist.refl _)
            · show (s.got ++ [_]).Perm (s.delivered ++ held s ++ (s.queue ++ [_]) ++ s.dropped)
              have hp := h.perm
              refine (hp.append_right _).trans ?_
              rw [← List.append_assoc (s.delivered ++ held s), List.append_assoc (s.delivered ++ held s ++ s.queue),
                List.append_assoc (s.delivered ++ held s ++ s.queue)]
              exact (List.perm_append_comm).append_left _
          · cases hs
            refine inv_th cap n s h d _ (Or.inl hd.1) ?_ id (fun h => by cases h.1)
            show count d s.queue + k ≤ cap
            omega
    · cases hs
  | post d =>
    unfold step at hs
    dsimp only at hs
    split at hs
    · rename_i hd
      cases hs
      have hth : ∀ e, ((s.setTh d { s.th d with post := false }).th e).pc = (s.th e).pc ∧
          ((s.setTh d { s.th d with post := false }).th e).pipe = (s.th e).pipe := by
        intro e
        rw [setTh_th]
        by_cases he : e = d
        · subst he; rw [if_pos rfl]; exact ⟨rfl, rfl⟩
        · rw [if_neg he]; exact ⟨rfl, rfl⟩
      refine ⟨?_, h.devs, ?_, fun _ => Or.inl rfl, ?_, h.order, h.perm⟩
      · intro e
        show count e s.queue + allowed ((s.setTh d _).th e).pc ≤ cap
        rw [(hth e).1]; exact h.bound e
      · intro e hdf
        exact h.wake e ⟨by rw [← (hth e).1]; exact hdf.1, by rw [← (hth e).2]; exact hdf.2⟩
      · intro e he
        show ((s.setTh d _).th e).pc = _ ∧ ((s.setTh d _).th e).post = _
        rw [setTh_th, if_neg (by omega)]
        exact h.off e he
    · cases hs
  | next d =>
    unfold step at hs
    dsimp only at hs
    split at hs
    · rename_i hd
      have hbd := h.bound d
      cases hpc : (s.th d).pc with
      | full => rw [hpc] at hs; cases hs
      | all => rw [hpc] at hs; cases hs
      | check => rw [hpc] at hs; cases hs
      | work k =>
        rw [hpc] at hs
        cases hs
        refine inv_th cap n s h d _ (Or.inl hd.1) ?_ id (fun h => by cases h.1)
        show count d s.queue + 0 ≤ cap
        omega
    · cases hs
  | drop d p =>
    unfold step at hs
    dsimp only at hs
    cases hs
    have hle : ∀ e, count e (s.queue.filter fun m => !(m.dev == d && m.peer == p)) ≤ count e s.queue :=
      fun e => filter_count_le _ e _
    refine ⟨?_, ?_, ?_, ?_, h.off, ?_, ?_⟩
    · intro e
      have h1 := h.bound e
      have h2 := hle e
      dsimp only
      omega
    · intro m hm
      refine h.devs m ?_
      rcases List.mem_append.1 hm with hm | hm
      · exact List.mem_append_left _ hm
      · exact List.mem_append_right _ (List.mem_filter.1 hm).1
    · intro e hdf
      dsimp only
      have hcd := count_drop d p s.queue
      rcases h.wake e hdf with h1 | h1 | h1
      · by_cases he : e = d
        · subst he
          refine Or.inr (Or.inl ?_)
          rw [if_pos (by omega)]
          exact List.mem_append_right _ (List.mem_singleton.2 rfl)
        · rw [count_drop_other d e p he]
          exact Or.inl h1
      · refine Or.inr (Or.inl ?_)
        split
        · exact List.mem_append_left _ h1
        · exact h1
      · exact Or.inr (Or.inr h1)
    · intro hq
      refine h.req ?_
      intro h0
      apply hq
      dsimp only
      rw [h0]
      rfl
    · show (s.delivered ++ held s ++ s.queue.filter _).Sublist s.got
      exact (List.Sublist.append (List.Sublist.refl _) List.filter_sublist).trans h.order
    · show s.got.Perm (s.delivered ++ held s ++ s.queue.filter _ ++ (s.dropped ++ s.queue.filter _))
      refine h.perm.trans ?_
      rw [List.append_assoc (s.delivered ++ held s), List.append_assoc (s.delivered ++ held s)]
      refine List.Perm.append_left _ ?_
      have hf := (List.filter_append_perm (fun m : Msg => !(m.dev == d && m.peer == p)) s.queue).symm
      simp only [Bool.not_not] at hf
      refine (hf.append_right _).trans ?_
      rw [List.append_assoc]
      exact List.perm_append_comm.append_left _
  | dropSig i =>
    unfold step at hs
    dsimp only at hs
    cases hi : s.sig[i]? with
    | none => rw [hi] at hs; cases hs
    | some d =>
      rw [hi] at hs
      cases hs
      refine ⟨?_, h.devs, ?_, ?_, ?_, h.order, h.perm⟩
      · intro e
        show count e s.queue + allowed ((s.setTh d _).th e).pc ≤ cap
        rw [setTh_th]
        by_cases he : e = d
        · subst he; rw [if_pos rfl]; exact h.bound e
        · rw [if_neg he]; exact h.bound e
      · intro e
        show deaf ((s.setTh d _).th e) → _
        rw [setTh_th]
        by_cases he : e = d
        · subst he; rw [if_pos rfl]; intro hdf; exact absurd hdf.2 (Nat.succ_ne_zero _)
        · rw [if_neg he]
          intro hdf
          rcases h.wake e hdf with h1 | h1 | h1
          · exact Or.inl h1
          · refine Or.inr (Or.inl ?_)
            show e ∈ s.sig.eraseIdx i
            obtain ⟨j, hj, hje⟩ := List.mem_iff_getElem.1 h1
            rw [List.mem_eraseIdx_iff_getElem]
            obtain ⟨hil, hie⟩ := List.getElem?_eq_some_iff.1 hi
            refine ⟨j, hj, ?_, hje⟩
            intro hji
            subst hji
            exact he (hje.symm.trans hie)
          · exact Or.inr (Or.inr h1)
      · intro hq
        rcases h.req hq with h1 | h1 | ⟨e, he, h1⟩
        · exact Or.inl h1
        · exact Or.inr (Or.inl h1)
        · refine Or.inr (Or.inr ⟨e, he, ?_⟩)
          show ((s.setTh d _).th e).post = true
          rw [setTh_th]
          by_cases hed : e = d
          · subst hed; rw [if_pos rfl]; exact h1
          · rw [if_neg hed]; exact h1
      · intro e he
        show ((s.setTh d _).th e).pc = _ ∧ ((s.setTh d _).th e).post = _
        rw [setTh_th]
        by_cases hed : e = d
        · subst hed; rw [if_pos rfl]; exact h.off e he
        · rw [if_neg hed]; exact h.off e he

theorem run_inv (cap n : Nat) (hc : 0 < cap) (l : List Act) : ∀ s t, Inv cap n s → run cap n s l = some t → Inv cap n t := by
  induction l with
  | nil => intro s t h hs; cases hs; exact h
  | cons a l ih =>
    intro s t h hs
    unfold run at hs
    cases ha : step cap n s a with
    | none => rw [ha] at hs; cases hs
    | some u => rw [ha] at hs; exact ih u t (step_inv cap n hc s u a h ha) hs

/-- After every history, whatever the interleaving: the messages accepted are exactly
those delivered, on their way, waiting or dropped, each once; those not dropped are
delivered in the order in which they were accepted; and no device has more than the
allowed number of messages waiting. -/
theorem each_once (cap n : Nat) (hc : 0 < cap) (l : List Act) (s : St) (h : run cap n start l = some s) :
    s.got.Perm (s.delivered ++ held s ++ s.queue ++ s.dropped) ∧
    (s.delivered ++ held s ++ s.queue).Sublist s.got ∧
    ∀ d, count d s.queue ≤ cap := by
  have hi := run_inv cap n hc l start s (inv_start cap n) h
  exact ⟨hi.perm, hi.order, fun d => Nat.le_trans (Nat.le_add_right _ _) (hi.bound d)⟩

/-! ### Nobody waits for ever -/

/-- The work left to do by itself. -/
def tw (n : Nat) (t : Th) : Nat :=
  4 * t.pipe + (if t.post then 5 * n + 11 else 0) + (match t.pc with | .check => 1 | .work _ => 2 | _ => 0)

def mw (n : Nat) : MPc → Nat
  | .idle => 0
  | .polled => 5 * n + 9
  | .took b => 5 * n + 8 + 2 * b.length
  | .wake b l => 5 * l.length + 6 + 2 * b.length
  | .hand b => 1 + 2 * b.length

def work (n : Nat) (s : St) : Nat :=
  total (tw n) s.th n + mw n s.main + (if s.need then 5 * n + 10 else 0) + 5 * s.sig.length + 2 * s.queue.length

theorem total_setTh (n : Nat) (s : St) (d : Nat) (t : Th) (hd : d < n) :
    total (tw n) (s.setTh d t).th n + tw n (s.th d) = total (tw n) s.th n + tw n t :=
  total_set (tw n) s.th d t n hd

theorem total_pipe (n : Nat) (s : St) (d : Nat) :
    total (tw n) (s.setTh d { s.th d with pipe := (s.th d).pipe + 1 }).th n ≤ total (tw n) s.th n + 4 := by
  by_cases hd : d < n
  · have := total_setTh n s d { s.th d with pipe := (s.th d).pipe + 1 } hd
    unfold tw at this ⊢
    dsimp only at this ⊢
    omega
  · have := total_out (tw n) s.th d { s.th d with pipe := (s.th d).pipe + 1 } n (by omega)
    unfold St.setTh
    dsimp only
    rw [this]
    omega

theorem less_of (n : Nat) (s : St) (d : Nat) (t : Th) (hd : d < n) (h : tw n t < tw n (s.th d)) :
    work n (s.setTh d t) < work n s := by
  have h1 := total_setTh n s d t hd
  show total (tw n) (s.setTh d t).th n + mw n s.main + (if s.need then 5 * n + 10 else 0) + 5 * s.sig.length +
    2 * s.queue.length < work n s
  unfold work
  omega

theorem less_post (n : Nat) (s : St) (d : Nat) (t : Th) (hd : d < n) (h : tw n t + (5 * n + 10) < tw n (s.th d)) :
    work n { s.setTh d t with need := true } < work n s := by
  have h1 := total_setTh n s d t hd
  show total (tw n) (s.setTh d t).th n + mw n s.main + (5 * n + 10) + 5 * s.sig.length +
    2 * s.queue.length < work n s
  unfold work
  omega

theorem internal_less (cap n : Nat) (hc : 0 < cap) (s t : St) (a : Act) (h : Inv cap n s) (hi : internal a = true)
    (hs : step cap n s a = some t) : work n t < work n s := by
  cases a with
  | recv d m v => cases hi
  | drop d p => cases hi
  | check d =>
    unfold step at hs
    dsimp only at hs
    split at hs
    · rename_i hd
      cases hs
      refine less_of n s d _ hd.1 ?_
      unfold tw
      rw [hd.2]
      by_cases hq : count d s.queue ≥ cap
      · simp only [if_pos hq]; omega
      · simp only [if_neg hq]; omega
    · cases hs
  | select d ready control =>
    simp only [internal, Bool.and_eq_true, beq_iff_eq, Bool.not_eq_true'] at hi
    obtain ⟨hr, hcn⟩ := hi
    subst hr hcn
    have key : ∀ k, (s.th d).pipe > 0 → ((s.th d).pc = .full ∨ (s.th d).pc = .all) → d < n →
        work n (s.setTh d { s.th d with pipe := (s.th d).pipe - 1, pc := .work k }) < work n s := by
      intro k hp hpc hd
      refine less_of n s d _ hd ?_
      unfold tw
      rcases hpc with hpc | hpc <;> rw [hpc] <;> dsimp only <;> omega
    unfold step at hs
    dsimp only at hs
    split at hs
    · rename_i hd
      cases hpc : (s.th d).pc with
      | full =>
        rw [hpc] at hs
        dsimp only at hs
        split at hs
        · rename_i hp
          cases hs
          exact key 0 (by rcases hp with hp | hp; exact hp; cases hp) (Or.inl hpc) hd
        · cases hs
      | all =>
        rw [hpc] at hs
        dsimp only at hs
        split at hs
        · rename_i hp
          cases hs
          exact key _ (by rcases hp with hp | hp | hp; exact hp; cases hp; omega) (Or.inr hpc) hd
        · cases hs
      | check => rw [hpc] at hs; cases hs
      | work k => rw [hpc] at hs; cases hs
    · cases hs
  | post d =>
    unfold step at hs
    dsimp only at hs
    split at hs
    · rename_i hd
      cases hs
      refine less_post n s d _ hd.1 ?_
      unfold tw
      rw [hd.2]
      simp only [if_true, Bool.false_eq_true, if_false]
      omega
    · cases hs
  | next d =>
    unfold step at hs
    dsimp only at hs
    split at hs
    · rename_i hd
      cases hpc : (s.th d).pc with
      | full => rw [hpc] at hs; cases hs
      | all => rw [hpc] at hs; cases hs
      | check => rw [hpc] at hs; cases hs
      | work k =>
        rw [hpc] at hs
        cases hs
        refine less_of n s d _ hd.1 ?_
        unfold tw
        rw [hpc]
        dsimp only
        omega
    · cases hs
  | main =>
    replace hs : mainStep cap n s = some t := hs
    unfold mainStep at hs
    cases hm : s.main with
    | idle =>
      rw [hm] at hs
      dsimp only at hs
      split at hs
      · rename_i hn
        cases hs
        unfold work
        dsimp only
        rw [hm, hn]
        simp only [if_true, Bool.false_eq_true, if_false, mw]
        omega
      · cases hs
    | polled =>
      rw [hm] at hs
      cases hs
      unfold work
      dsimp only
      rw [hm]
      simp only [mw, List.length_nil]
      omega
    | took b =>
      rw [hm] at hs
      dsimp only at hs
      have hh : held s = b := by unfold held; rw [hm]
      have hdv := h.devs
      rw [hh] at hdv
      obtain ⟨l, hl, _, hlen⟩ := wakeLoop_spec cap n hc b (fun m hmm => hdv m (List.mem_append_left _ hmm)) n 0 (Nat.le_refl _)
      rw [tail_zero] at hl
      rw [hl] at hs
      cases hs
      unfold work
      dsimp only
      rw [hm]
      simp only [mw]
      omega
    | wake b l =>
      rw [hm] at hs
      cases l with
      | nil =>
        cases hs
        unfold work
        dsimp only
        rw [hm]
        simp only [mw, List.length_nil]
        omega
      | cons d l =>
        cases hs
        have h1 := total_pipe n s d
        dsimp only at h1
        unfold work
        rw [hm]
        show total (tw n) (s.setTh d _).th n + (5 * l.length + 6 + 2 * b.length) + (if s.need then 5 * n + 10 else 0) +
          5 * s.sig.length + 2 * s.queue.length < _
        simp only [mw, List.length_cons]
        omega
    | hand b =>
      rw [hm] at hs
      cases b with
      | nil =>
        cases hs
        unfold work
        dsimp only
        rw [hm]
        simp only [mw, List.length_nil]
        omega
      | cons m b =>
        cases hs
        unfold work
        dsimp only
        rw [hm]
        simp only [mw, List.length_cons]
        omega
  | dropSig i =>
    unfold step at hs
    dsimp only at hs
    cases hi2 : s.sig[i]? with
    | none => rw [hi2] at hs; cases hs
    | some d =>
      rw [hi2] at hs
      cases hs
      have h1 := total_pipe n s d
      dsimp only at h1
      obtain ⟨hil, _⟩ := List.getElem?_eq_some_iff.1 hi2
      have h2 : (s.sig.eraseIdx i).length + 1 = s.sig.length := by
        rw [List.length_eraseIdx, if_pos hil]; omega
      unfold work
      show total (tw n) (s.setTh d _).th n + mw n s.main + (if s.need then 5 * n + 10 else 0) +
          5 * (s.sig.eraseIdx i).length + 2 * s.queue.length < _
      omega

theorem settles_inv (cap n : Nat) (hc : 0 < cap) (l : List Act) : ∀ s t, Inv cap n s → (∀ a ∈ l, internal a = true) →
    run cap n s l = some t → l.length + work n t ≤ work n s := by
  induction l with
  | nil => intro s t _ _ hs; cases hs; simp
  | cons a l ih =>
    intro s t h hi hs
    unfold run at hs
    cases ha : step cap n s a with
    | none => rw [ha] at hs; cases hs
    | some u =>
      rw [ha] at hs
      have h1 := internal_less cap n hc s u a h (hi a (List.mem_cons_self ..)) ha
      have h2 := ih u t (step_inv cap n hc s u a h ha) (fun b hb => hi b (List.mem_cons_of_mem _ hb)) hs
      simp only [List.length_cons]
      omega

/-- When no more messages arrive, only finitely many steps remain: from every state
that can be reached there is a bound for what happens by itself. -/
theorem settles (cap n : Nat) (hc : 0 < cap) (l : List Act) (s : St) (h : run cap n start l = some s) :
    ∃ bound, ∀ r t, (∀ a ∈ r, internal a = true) → run cap n s r = some t → r.length ≤ bound := by
  refine ⟨work n s, ?_⟩
  intro r t hr ht
  have := settles_inv cap n hc r s t (run_inv cap n hc l start s (inv_start cap n) h) hr ht
  omega

/-- No wake-up is lost: whatever happened before, when nothing more happens by itself,
every message accepted and not dropped has been delivered, in order, and every
network thread listens to its sockets. -/
theorem no_lost_wakeup (cap n : Nat) (hc : 0 < cap) (l : List Act) (s : St) (h : run cap n start l = some s)
    (hrest : ∀ a, internal a = true → step cap n s a = none) :
    (∀ d, d < n → listening (s.th d)) ∧ s.queue = [] ∧ held s = [] ∧ s.got.Perm (s.delivered ++ s.dropped) ∧
      s.delivered.Sublist s.got := by
  have hi := run_inv cap n hc l start s (inv_start cap n) h
  have hmain : s.main = .idle ∧ s.need = false := by
    have hm0 := hrest .main rfl
    replace hm0 : mainStep cap n s = none := hm0
    unfold mainStep at hm0
    cases hm : s.main with
    | idle =>
      rw [hm] at hm0
      dsimp only at hm0
      cases hn : s.need with
      | false => exact ⟨rfl, rfl⟩
      | true => rw [hn, if_pos rfl] at hm0; cases hm0
    | polled => rw [hm] at hm0; cases hm0
    | took b =>
      rw [hm] at hm0
      have hh : held s = b := by unfold held; rw [hm]
      have hdv := hi.devs
      rw [hh] at hdv
      obtain ⟨l, hl, _, hlen⟩ := wakeLoop_spec cap n hc b (fun m hmm => hdv m (List.mem_append_left _ hmm)) n 0 (Nat.le_refl _)
      rw [tail_zero] at hl
      dsimp only at hm0
      rw [hl] at hm0
      cases hm0
    | wake b l => rw [hm] at hm0; cases l <;> cases hm0
    | hand b => rw [hm] at hm0; cases b <;> cases hm0
  have hsig : s.sig = [] := by
    have := hrest (.dropSig 0) rfl
    unfold step at this
    dsimp only at this
    cases hs : s.sig with
    | nil => rfl
    | cons d l => rw [hs] at this; cases this
  have hpost : ∀ d, d < n → (s.th d).post = false := by
    intro d hd
    have := hrest (.post d) rfl
    unfold step at this
    dsimp only at this
    cases hp : (s.th d).post with
    | false => rfl
    | true => rw [hp, if_pos ⟨hd, rfl⟩] at this; cases this
  have hq : s.queue = [] := by
    cases hq : s.queue with
    | nil => rfl
    | cons m q =>
      rcases hi.req (by rw [hq]; simp) with h1 | h1 | ⟨d, hd, h1⟩
      · rw [hmain.2] at h1; cases h1
      · rw [hmain.1] at h1; cases h1
      · rw [hpost d hd] at h1; cases h1
  have hheld : held s = [] := by unfold held; rw [hmain.1]
  refine ⟨?_, hq, hheld, ?_, ?_⟩
  · intro d hd
    cases hpc : (s.th d).pc with
    | all => exact hpc
    | check =>
      have := hrest (.check d) rfl
      unfold step at this
      dsimp only at this
      rw [if_pos ⟨hd, hpc⟩] at this
      cases this
    | work k =>
      have := hrest (.next d) rfl
      unfold step at this
      dsimp only at this
      rw [if_pos ⟨hd, hpost d hd⟩, hpc] at this
      cases this
    | full =>
      have hp : (s.th d).pipe = 0 := by
        have := hrest (.select d 0 false) rfl
        unfold step at this
        dsimp only at this
        rw [if_pos hd, hpc] at this
        dsimp only at this
        split at this
        · cases this
        · omega
      rcases hi.wake d ⟨hpc, hp⟩ with h1 | h1 | h1
      · rw [hq, count_nil] at h1; omega
      · rw [hsig] at h1; cases h1
      · rw [hmain.1] at h1; exact h1.elim
  · have := hi.perm
    rw [hheld, hq, List.append_nil, List.append_nil] at this
    exact this
  · have := hi.order
    rw [hheld, hq, List.append_nil, List.append_nil] at this
    exact this

/-- The wake-up loop ends and wakes exactly the devices whose queues were full. -/
theorem wake_exact (cap n : Nat) (hc : 0 < cap) (q : List Msg) (hq : ∀ m ∈ q, m.dev < n) :
    ∃ l, wakeLoop cap q n 0 q.length = some l ∧ ∀ d, d ∈ l ↔ cap ≤ count d q := by
  obtain ⟨l, hl, hm, _⟩ := wakeLoop_spec cap n hc q hq n 0 (Nat.le_refl _)
  rw [tail_zero] at hl
  exact ⟨l, hl, fun d => (hm d).trans ⟨fun h => h.2, fun h => ⟨Nat.zero_le _, h⟩⟩⟩

/-- Two devices, at most one message waiting each: a device is deaf while its queue is full, is woken, and listens again. -/
example : ∃ s, run 1 2 start [.check 0, .select 0 3 false, .recv 0 ⟨7, 0, 5⟩ true, .post 0, .next 0, .check 0] = some s ∧
    deaf (s.th 0) ∧ s.queue = [⟨7, 0, 5⟩] ∧
    ∃ t, run 1 2 s [.main, .main, .main, .main, .main, .main, .main, .select 0 0 false, .next 0, .check 0, .check 1] = some t ∧
      t.delivered = [⟨7, 0, 5⟩] ∧ listening (t.th 0) := ⟨_, rfl, ⟨rfl, rfl⟩, rfl, _, rfl, rfl, rfl⟩

end Verif.NetQueue
