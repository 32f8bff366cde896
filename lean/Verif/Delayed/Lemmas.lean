import Verif.Delayed.Model
/-! Lemmas about the delayed callbacks. -/
namespace Verif.Delayed

/-- The invariant about the existing callbacks `L`, the number of allocations and the
record; `x` is the callback being processed. -/
structure InvL (x : Option Nat) (L : List Cb) (n : Nat) (log : List Ev) : Prop where
  nodup : (L.map (·.id)).Nodup
  lt : ∀ c ∈ L, c.id < n
  freed : ∀ i, log.count (.freed i) + (if i ∈ L.map (·.id) then 1 else 0) = if i < n then 1 else 0
  added : ∀ i, log.count (.added i) = if i < n then 1 else 0
  due : ∀ c ∈ L, log.count (.ran c.id) + (if c.expired = true ∧ x ≠ some c.id then 1 else 0) = log.count (.due c.id)
  dueLe : ∀ i, log.count (.ran i) ≤ log.count (.due i)
  fresh : ∀ i, n ≤ i → log.count (.due i) = 0
  order : ∀ a b i, log = a ++ .freed i :: b → .ran i ∉ b ∧ .due i ∉ b

theorem InvL.perm {x L L' n log} (h : InvL x L n log) (p : L.Perm L') : InvL x L' n log where
  nodup := (p.map _).nodup_iff.1 h.nodup
  lt := fun c hc => h.lt c (p.mem_iff.2 hc)
  freed := fun i => by
    rw [← h.freed i]
    congr 1
    by_cases hi : i ∈ L.map (·.id)
    · rw [if_pos hi, if_pos ((p.map _).mem_iff.1 hi)]
    · rw [if_neg hi, if_neg (fun h => hi ((p.map _).mem_iff.2 h))]
  added := h.added
  due := fun c hc => h.due c (p.mem_iff.2 hc)
  dueLe := h.dueLe
  fresh := h.fresh
  order := h.order

theorem count_removedLog_freed (o : Option Nat) (c : Cb) (i : Nat) :
    (removedLog o c).count (.freed i) = if i = c.id then 1 else 0 := by
  unfold removedLog
  by_cases h : i = c.id
  · subst h; cases o <;> simp
  · have h' : ¬ c.id = i := fun e => h e.symm
    cases o <;> simp [h, h']

theorem count_removedLog_other (o : Option Nat) (c : Cb) (e : Ev) (h1 : ∀ i, e ≠ .freed i) (h2 : ∀ f d, e ≠ .onDelete f d) :
    (removedLog o c).count e = 0 := by
  rw [List.count_eq_zero]
  unfold removedLog
  cases o <;> simp [h1, h2]

theorem append_split {α : Type} {l a b : List α} {x : α} {m : List α} (h : l ++ m = a ++ x :: b) :
    (∃ b', l = a ++ x :: b' ∧ b = b' ++ m) ∨ ∃ a', m = a' ++ x :: b ∧ a = l ++ a' := by
  rcases List.append_eq_append_iff.1 h with ⟨a', e1, e2⟩ | ⟨c', e1, e2⟩
  · exact Or.inr ⟨a', e2, e1⟩
  · cases c' with
    | nil => simp only [List.append_nil] at e1; simp only [List.nil_append] at e2; exact Or.inr ⟨[], e2.symm, by simp [e1]⟩
    | cons y t =>
      simp only [List.cons_append, List.cons.injEq] at e2
      obtain ⟨rfl, rfl⟩ := e2
      exact Or.inl ⟨t, e1, rfl⟩

theorem InvL.free {x c L n log} (o : Option Nat) (h : InvL x (c :: L) n log) : InvL x L n (log ++ removedLog o c) where
  nodup := (List.nodup_cons.1 h.nodup).2
  lt := fun d hd => h.lt d (List.mem_cons_of_mem _ hd)
  freed := fun i => by
    have hf := h.freed i
    rw [List.count_append, count_removedLog_freed]
    have hn : c.id ∉ L.map (·.id) := (List.nodup_cons.1 h.nodup).1
    rw [List.map_cons] at hf
    by_cases hi : i = c.id
    · subst hi
      rw [if_pos (List.mem_cons_self ..)] at hf
      rw [if_pos rfl, if_neg hn]
      omega
    · rw [if_neg hi]
      by_cases hm : i ∈ L.map (·.id)
      · rw [if_pos (List.mem_cons_of_mem _ hm)] at hf
        rw [if_pos hm]; omega
      · rw [if_neg (by simp only [List.mem_cons]; exact fun h => h.elim hi hm)] at hf
        rw [if_neg hm]; omega
  added := fun i => by
    rw [List.count_append, count_removedLog_other _ _ _ (by simp) (by simp), Nat.add_zero]; exact h.added i
  due := fun d hd => by
    rw [List.count_append, List.count_append, count_removedLog_other _ _ _ (by simp) (by simp),
      count_removedLog_other _ _ _ (by simp) (by simp)]
    exact h.due d (List.mem_cons_of_mem _ hd)
  dueLe := fun i => by
    rw [List.count_append, List.count_append, count_removedLog_other _ _ _ (by simp) (by simp),
      count_removedLog_other _ _ _ (by simp) (by simp)]
    exact h.dueLe i
  fresh := fun i hi => by
    rw [List.count_append, count_removedLog_other _ _ _ (by simp) (by simp)]
    exact h.fresh i hi
  order := fun a b i e => by
    have nr : ∀ e : Ev, (∀ i, e ≠ .freed i) → (∀ f d, e ≠ .onDelete f d) → e ∉ removedLog o c := fun e h1 h2 =>
      List.count_eq_zero.1 (count_removedLog_other o c e h1 h2)
    rcases append_split e with ⟨b', e1, e2⟩ | ⟨a', e1, e2⟩
    · have ⟨o1, o2⟩ := h.order a b' i e1
      rw [e2]
      constructor
      · rw [List.mem_append]; exact fun h => h.elim o1 (nr _ (by simp) (by simp))
      · rw [List.mem_append]; exact fun h => h.elim o2 (nr _ (by simp) (by simp))
    · have sub : ∀ e, e ∈ b → e ∈ removedLog o c := fun e he => by rw [e1]; simp [he]
      exact ⟨fun h => nr _ (by simp) (by simp) (sub _ h), fun h => nr _ (by simp) (by simp) (sub _ h)⟩

theorem InvL.freeAll {x n} (o : Option Nat) : ∀ (R : List Cb) {L log}, InvL x (R ++ L) n log →
    InvL x L n (log ++ R.flatMap (removedLog o))
  | [], L, log, h => by rw [List.flatMap_nil, List.append_nil]; exact h
  | c :: R, L, log, h => by
    rw [List.flatMap_cons, ← List.append_assoc]
    exact InvL.freeAll o R (InvL.free o h)

theorem InvL.add {x L n log} (fn d : Nat) (h : InvL x L n log) :
    InvL x (L ++ [⟨n, fn, d, false⟩]) (n + 1) (log ++ [.added n]) where
  nodup := by
    rw [List.map_append, List.nodup_append]
    refine ⟨h.nodup, by simp, ?_⟩
    intro a ha b hb
    simp at hb
    subst hb
    obtain ⟨c, hc, rfl⟩ := List.mem_map.1 ha
    have := h.lt c hc
    omega
  lt := fun c hc => by
    rcases List.mem_append.1 hc with hc | hc
    · have := h.lt c hc; omega
    · simp at hc; subst hc; show n < n + 1; omega
  freed := fun i => by
    have hf := h.freed i
    rw [List.count_append, List.map_append]
    have : List.count (Ev.freed i) [Ev.added n] = 0 := by simp
    rw [this]
    have hm : i ∈ L.map (·.id) ++ [⟨n, fn, d, false⟩].map Cb.id ↔ i ∈ L.map (·.id) ∨ i = n := by simp
    by_cases hi : i ∈ L.map (·.id)
    · rw [if_pos (hm.2 (Or.inl hi))]
      rw [if_pos hi] at hf
      split at hf
      · rw [if_pos (by omega)]; omega
      · omega
    · rw [if_neg hi] at hf
      by_cases hn : i = n
      · rw [if_pos (hm.2 (Or.inr hn))]
        rw [if_neg (by omega)] at hf
        rw [if_pos (by omega)]; omega
      · rw [if_neg (fun h => (hm.1 h).elim hi hn)]
        by_cases hlt : i < n
        · rw [if_pos hlt] at hf; rw [if_pos (by omega)]; omega
        · rw [if_neg hlt] at hf; rw [if_neg (by omega)]; omega
  added := fun i => by
    have ha := h.added i
    rw [List.count_append]
    by_cases hn : i = n
    · subst hn
      rw [if_neg (by omega)] at ha
      rw [if_pos (by omega)]
      simp [ha]
    · have : List.count (Ev.added i) [Ev.added n] = 0 := by
        rw [List.count_eq_zero]; simp; exact hn
      rw [this, ha]
      by_cases hlt : i < n
      · rw [if_pos hlt, if_pos (by omega)]
      · rw [if_neg hlt, if_neg (by omega)]
  due := fun c hc => by
    have e1 : List.count (Ev.ran c.id) [Ev.added n] = 0 := by simp
    have e2 : List.count (Ev.due c.id) [Ev.added n] = 0 := by simp
    rw [List.count_append, List.count_append, e1, e2]
    rcases List.mem_append.1 hc with hc | hc
    · exact h.due c hc
    · simp at hc
      subst hc
      have := h.fresh n (Nat.le_refl _)
      have := h.dueLe n
      show log.count (.ran n) + 0 + (if false = true ∧ _ then 1 else 0) = log.count (.due n) + 0
      rw [if_neg (fun h => Bool.false_ne_true h.1)]
      omega
  dueLe := fun i => by
    have e1 : List.count (Ev.ran i) [Ev.added n] = 0 := by simp
    have e2 : List.count (Ev.due i) [Ev.added n] = 0 := by simp
    rw [List.count_append, List.count_append, e1, e2]
    exact h.dueLe i
  fresh := fun i hi => by
    have e2 : List.count (Ev.due i) [Ev.added n] = 0 := by simp
    rw [List.count_append, e2]
    exact h.fresh i (by omega)
  order := fun a b i e => by
    rcases append_split e with ⟨b', e1, e2⟩ | ⟨a', e1, e2⟩
    · have ⟨o1, o2⟩ := h.order a b' i e1
      rw [e2]
      simp [o1, o2]
    · have sub : ∀ e, e ∈ b → e ∈ [Ev.added n] := fun e he => by rw [e1]; simp [he]
      exact ⟨fun h => (by simpa using sub _ h), fun h => (by simpa using sub _ h)⟩

theorem InvL.notFreed {x L n log c} (h : InvL x L n log) (hc : c ∈ L) : Ev.freed c.id ∉ log := by
  have hf := h.freed c.id
  rw [if_pos (List.mem_map_of_mem hc)] at hf
  rw [← List.count_eq_zero]
  split at hf <;> omega

theorem InvL.run {L n log c} (h : InvL none L n log) (hc : c ∈ L) (he : c.expired = true) :
    InvL (some c.id) L n (log ++ [.ran c.id]) where
  nodup := h.nodup
  lt := h.lt
  freed := fun i => by
    have : List.count (Ev.freed i) [Ev.ran c.id] = 0 := by simp
    rw [List.count_append, this]; exact h.freed i
  added := fun i => by
    have : List.count (Ev.added i) [Ev.ran c.id] = 0 := by simp
    rw [List.count_append, this]; exact h.added i
  due := fun d hd => by
    have e2 : List.count (Ev.due d.id) [Ev.ran c.id] = 0 := by simp
    rw [List.count_append, List.count_append, e2]
    by_cases hdc : d.id = c.id
    · have := h.due c hc
      rw [if_pos ⟨he, by simp⟩] at this
      rw [hdc, if_neg (fun h => h.2 rfl)]
      simp
      omega
    · have e1 : List.count (Ev.ran d.id) [Ev.ran c.id] = 0 := by
        rw [List.count_eq_zero]; simp; exact hdc
      rw [e1]
      have := h.due d hd
      have hx : (some c.id : Option Nat) ≠ some d.id := fun h => hdc (Option.some.inj h).symm
      simp only [ne_eq, hx, not_false_eq_true, and_true, reduceCtorEq] at this ⊢
      omega
  dueLe := fun i => by
    have e2 : List.count (Ev.due i) [Ev.ran c.id] = 0 := by simp
    rw [List.count_append, List.count_append, e2]
    by_cases hi : i = c.id
    · subst hi
      have := h.due c hc
      rw [if_pos ⟨he, by simp⟩] at this
      simp
      omega
    · have e1 : List.count (Ev.ran i) [Ev.ran c.id] = 0 := by
        rw [List.count_eq_zero]; simp; exact hi
      rw [e1]; exact h.dueLe i
  fresh := fun i hi => by
    have e2 : List.count (Ev.due i) [Ev.ran c.id] = 0 := by simp
    rw [List.count_append, e2]; exact h.fresh i hi
  order := fun a b i e => by
    rcases append_split e with ⟨b', e1, e2⟩ | ⟨a', e1, e2⟩
    · have ⟨o1, o2⟩ := h.order a b' i e1
      rw [e2]
      refine ⟨?_, by simp [o2]⟩
      intro hm
      rcases List.mem_append.1 hm with hm | hm
      · exact o1 hm
      · simp at hm
        subst hm
        exact h.notFreed hc (by rw [e1]; simp)
    · cases a' with
      | nil => simp at e1
      | cons y t => simp at e1

theorem InvL.done {L n log i} (h : InvL (some i) L n log) (hi : i ∉ L.map (·.id)) : InvL none L n log where
  nodup := h.nodup
  lt := h.lt
  freed := h.freed
  added := h.added
  due := fun c hc => by
    have := h.due c hc
    have hx : (some i : Option Nat) ≠ some c.id := fun e => hi (by
      have := Option.some.inj e; rw [this]; exact List.mem_map_of_mem hc)
    simp only [ne_eq, hx, not_false_eq_true, and_true, reduceCtorEq] at this ⊢
    exact this
  dueLe := h.dueLe
  fresh := h.fresh
  order := h.order

/-- The callback is to run again. -/
def reset (i : Nat) (l : List Cb) : List Cb := l.map fun x => if x.id = i then { x with expired := false } else x

theorem reset_ids (i : Nat) (l : List Cb) : (reset i l).map (·.id) = l.map (·.id) := by
  unfold reset
  rw [List.map_map]
  apply List.map_congr_left
  intro c _
  show (if c.id = i then _ else c).id = c.id
  split <;> rfl

theorem InvL.again {L n log i} (h : InvL (some i) L n log) : InvL none (reset i L) n log where
  nodup := by rw [reset_ids]; exact h.nodup
  lt := fun c hc => by
    obtain ⟨d, hd, rfl⟩ := List.mem_map.1 hc
    split
    · exact h.lt d hd
    · exact h.lt d hd
  freed := fun j => by rw [reset_ids]; exact h.freed j
  added := h.added
  due := fun c hc => by
    obtain ⟨d, hd, rfl⟩ := List.mem_map.1 hc
    have := h.due d hd
    by_cases e : d.id = i
    · rw [if_pos e]
      rw [if_neg (fun h => h.2 (by rw [e]))] at this
      show log.count (.ran d.id) + (if false = true ∧ _ then 1 else 0) = log.count (.due d.id)
      rw [if_neg (fun h => Bool.false_ne_true h.1)]
      exact this
    · rw [if_neg e]
      have hx : (some i : Option Nat) ≠ some d.id := fun h => e (Option.some.inj h).symm
      simp only [ne_eq, hx, not_false_eq_true, and_true, reduceCtorEq] at this ⊢
      exact this
  dueLe := h.dueLe
  fresh := h.fresh
  order := h.order

theorem expire_ids (w : Nat → Bool) (l : List Cb) : (expireList w l).map (·.id) = l.map (·.id) := by
  unfold expireList
  rw [List.map_map]
  apply List.map_congr_left
  intro c _
  show (if w c.id = true then _ else c).id = c.id
  split <;> rfl

theorem mem_dueLog {w : Nat → Bool} {l : List Cb} {e : Ev} (h : e ∈ dueLog w l) : ∃ c ∈ l, e = .due c.id := by
  unfold dueLog at h
  obtain ⟨c, hc, rfl⟩ := List.mem_map.1 h
  exact ⟨c, (List.mem_filter.1 hc).1, rfl⟩

theorem count_dueLog (w : Nat → Bool) : ∀ (l : List Cb), (l.map (·.id)).Nodup → ∀ c ∈ l,
    (dueLog w l).count (.due c.id) = if w c.id = true ∧ c.expired = false then 1 else 0
  | [], _, c, hc => by cases hc
  | d :: l, hn, c, hc => by
    have ⟨n1, n2⟩ := List.nodup_cons.1 hn
    have hz : ∀ (i : Nat), i ∉ l.map (·.id) → (dueLog w l).count (.due i) = 0 := fun i hi => by
      rw [List.count_eq_zero]
      intro hm
      obtain ⟨x, hx, e⟩ := mem_dueLog hm
      injection e with e
      exact hi (by rw [e]; exact List.mem_map_of_mem hx)
    unfold dueLog
    rw [List.filter_cons]
    rcases List.mem_cons.1 hc with rfl | hm
    · have := hz c.id n1
      unfold dueLog at this
      by_cases hw : w c.id = true ∧ c.expired = false
      · rw [if_pos (by simp [hw.1, hw.2]), if_pos hw, List.map_cons, List.count_cons_self, this]
      · rw [if_neg hw, if_neg ?_]
        · exact this
        · intro h
          simp only [Bool.and_eq_true, Bool.not_eq_true'] at h
          exact hw h
    · have ih := count_dueLog w l n2 c hm
      have hne : d.id ≠ c.id := fun e => n1 (by show d.id ∈ _; rw [e]; exact List.mem_map_of_mem hm)
      rw [← ih]
      unfold dueLog
      split
      · rw [List.map_cons, List.count_cons_of_ne]
        simp [hne]
      · rfl

theorem InvL.expire {L n log} (w : Nat → Bool) (h : InvL none L n log) :
    InvL none (expireList w L) n (log ++ dueLog w L) where
  nodup := by rw [expire_ids]; exact h.nodup
  lt := fun c hc => by
    obtain ⟨d, hd, rfl⟩ := List.mem_map.1 hc
    split
    · exact h.lt d hd
    · exact h.lt d hd
  freed := fun j => by
    have : (dueLog w L).count (.freed j) = 0 := by
      rw [List.count_eq_zero]; intro hm
      obtain ⟨c, _, e⟩ := mem_dueLog hm; cases e
    rw [expire_ids, List.count_append, this]; exact h.freed j
  added := fun j => by
    have : (dueLog w L).count (.added j) = 0 := by
      rw [List.count_eq_zero]; intro hm
      obtain ⟨c, _, e⟩ := mem_dueLog hm; cases e
    rw [List.count_append, this]; exact h.added j
  due := fun c hc => by
    obtain ⟨d, hd, rfl⟩ := List.mem_map.1 hc
    have hr : ∀ j, (dueLog w L).count (.ran j) = 0 := fun j => by
      rw [List.count_eq_zero]; intro hm
      obtain ⟨c, _, e⟩ := mem_dueLog hm; cases e
    have hdl := count_dueLog w L h.nodup d hd
    have hid : (if w d.id = true then { d with expired := true } else d).id = d.id := by split <;> rfl
    rw [hid, List.count_append, List.count_append, hr, hdl]
    have := h.due d hd
    by_cases hw : w d.id = true
    · rw [if_pos hw]
      by_cases hx : d.expired = true
      · simp [hx] at this ⊢; omega
      · have hx : d.expired = false := by simpa using hx
        simp [hx, hw] at this ⊢; omega
    · rw [if_neg hw]
      simp [hw] at this ⊢; omega
  dueLe := fun i => by
    have hr : (dueLog w L).count (.ran i) = 0 := by
      rw [List.count_eq_zero]; intro hm
      obtain ⟨c, _, e⟩ := mem_dueLog hm; cases e
    rw [List.count_append, List.count_append, hr]
    have := h.dueLe i; omega
  fresh := fun i hi => by
    have hr : (dueLog w L).count (.due i) = 0 := by
      rw [List.count_eq_zero]; intro hm
      obtain ⟨c, hc, e⟩ := mem_dueLog hm
      injection e with e
      have := h.lt c hc; omega
    rw [List.count_append, hr]; exact h.fresh i hi
  order := fun a b i e => by
    rcases append_split e with ⟨b', e1, e2⟩ | ⟨a', e1, e2⟩
    · have ⟨o1, o2⟩ := h.order a b' i e1
      rw [e2]
      constructor
      · intro hm
        rcases List.mem_append.1 hm with hm | hm
        · exact o1 hm
        · obtain ⟨c, _, e⟩ := mem_dueLog hm; cases e
      · intro hm
        rcases List.mem_append.1 hm with hm | hm
        · exact o2 hm
        · obtain ⟨c, hc, e⟩ := mem_dueLog hm
          injection e with e
          subst e
          exact h.notFreed hc (by rw [e1]; simp)
    · exfalso
      have : Ev.freed i ∈ dueLog w L := by rw [e1]; simp
      obtain ⟨c, _, e⟩ := mem_dueLog this; cases e


/-! ## Steps of the model -/

/-- All existing callbacks. -/
def St.cbs (s : St) : List Cb := s.timed ++ s.obs

/-- The invariant. -/
def Inv (x : Option Nat) (s : St) : Prop := InvL x s.cbs s.next s.log

theorem removeLoop_perm (cur : Option Nat) (fn : Nat) (p : Nat → Bool) (all : Bool) : ∀ (l : List Cb) (w : Bool),
    l.Perm ((removeLoop cur fn p all l w).2.1 ++ (removeLoop cur fn p all l w).1)
  | [], w => List.Perm.refl _
  | c :: l, w => by
    rw [removeLoop]
    split
    · exact ((removeLoop_perm cur fn p all l w).cons c).trans List.perm_middle.symm
    split
    · split
      · exact ((removeLoop_perm cur fn p all l true).cons c).trans List.perm_middle.symm
      · exact List.Perm.refl _
    · split
      · exact (removeLoop_perm cur fn p all l false).cons c
      · exact List.Perm.refl _

theorem removeLoop_sub (cur : Option Nat) (fn : Nat) (p : Nat → Bool) (all : Bool) : ∀ (l : List Cb) (w : Bool),
    (removeLoop cur fn p all l w).1.Sublist l
  | [], w => List.Sublist.refl _
  | c :: l, w => by
    rw [removeLoop]
    split
    · exact (removeLoop_sub cur fn p all l w).cons_cons c
    split
    · split
      · exact (removeLoop_sub cur fn p all l true).cons_cons c
      · exact List.Sublist.refl _
    · split
      · exact (removeLoop_sub cur fn p all l false).cons c
      · exact (List.Sublist.refl _).cons c

theorem removeLoop_cur (i : Nat) (fn : Nat) (p : Nat → Bool) (all : Bool) : ∀ (l : List Cb) (w : Bool) (c : Cb),
    c ∈ l → c.id = i → c ∈ (removeLoop (some i) fn p all l w).1
  | [], w, c, h, _ => by cases h
  | d :: l, w, c, h, e => by
    have ih := fun w h => removeLoop_cur i fn p all l w c h e
    rw [removeLoop]
    split
    · rcases List.mem_cons.1 h with rfl | h
      · exact List.mem_cons_self ..
      · exact List.mem_cons_of_mem _ (ih w h)
    split
    · split
      · rcases List.mem_cons.1 h with rfl | h
        · exact List.mem_cons_self ..
        · exact List.mem_cons_of_mem _ (ih true h)
      · exact h
    · rename_i hne
      rcases List.mem_cons.1 h with rfl | h
      · exact absurd (by rw [e]) hne
      · split
        · exact ih false h
        · exact h

theorem removeTimed_inv {x s} (fn : Nat) (p : Nat → Bool) (all : Bool) (o : Option Nat) (h : Inv x s) :
    Inv x (removeTimed fn p all o s) := by
  have hp := removeLoop_perm s.cur fn p all s.timed false
  have : InvL x ((removeLoop s.cur fn p all s.timed false).1 ++ s.obs) s.next
      (s.log ++ (removeLoop s.cur fn p all s.timed false).2.1.flatMap (removedLog o)) := by
    apply InvL.freeAll
    refine h.perm ?_
    rw [← List.append_assoc]
    exact hp.append_right s.obs
  unfold removeTimed
  dsimp only
  split
  · exact this
  · exact this

theorem perm_filter_id {c : Cb} : ∀ {l : List Cb}, c ∈ l → (l.map (·.id)).Nodup →
    l.Perm (c :: l.filter (fun x => x.id != c.id))
  | [], h, _ => by cases h
  | d :: l, h, hn => by
    have ⟨n1, n2⟩ := List.nodup_cons.1 hn
    by_cases e : d.id = c.id
    · have hd : d = c := by
        rcases List.mem_cons.1 h with rfl | h
        · rfl
        · exact absurd (by show d.id ∈ _; rw [e]; exact List.mem_map_of_mem h) n1
      subst hd
      have : l.filter (fun x => x.id != d.id) = l := by
        rw [List.filter_eq_self]
        intro x hx
        simp
        intro e
        exact n1 (by show d.id ∈ _; rw [← e]; exact List.mem_map_of_mem hx)
      rw [List.filter_cons, if_neg (by simp), this]
    · rcases List.mem_cons.1 h with rfl | h
      · exact absurd rfl e
      · rw [List.filter_cons, if_pos (by simp [e])]
        exact ((perm_filter_id h n2).cons d).trans (List.Perm.swap ..)

theorem obsRemove_inv {x s} (r : Nat) (h : Inv x s) : Inv x (obsRemove r s) := by
  unfold obsRemove
  split
  · exact h
  · rename_i c hc
    have hm : c ∈ s.obs := List.mem_of_find?_eq_some hc
    have hn : (s.obs.map (·.id)).Nodup := by
      have := h.nodup
      rw [St.cbs, List.map_append] at this
      exact (List.nodup_append.1 this).2.1
    have hp : s.cbs.Perm (c :: (s.timed ++ s.obs.filter (fun x => x.id != c.id))) :=
      ((perm_filter_id hm hn).append_left s.timed).trans List.perm_middle
    exact InvL.free none (InvL.perm h hp)

theorem obsAdd_inv {x s} (r : Nat) (ok : Bool) (h : Inv x s) : Inv x (obsAdd r ok s) := by
  unfold obsAdd
  split
  · exact h
  split
  · have := InvL.add 0 r h
    rw [St.cbs, List.append_assoc] at this
    exact this
  · exact h

theorem addTimed_inv {x s} (fn d : Nat) (h : Inv x s) : Inv x (addTimed fn d s) := by
  have := InvL.add fn d h
  refine InvL.perm this ?_
  rw [St.cbs, addTimed, St.cbs, List.append_assoc, List.append_assoc]
  exact List.perm_append_comm.append_left s.timed

theorem act_inv {x s} (a : Act) (h : Inv x s) : Inv x (act s a) := by
  cases a with
  | add fn d ok =>
    simp only [act]
    split
    · exact addTimed_inv fn d h
    · exact h
  | remove fn p all o => exact removeTimed_inv fn p all o h
  | resAdd r =>
    simp only [act]
    split
    · exact h
    · exact h
  | resDel r => exact h
  | register r ok =>
    simp only [act]
    split
    · exact obsAdd_inv r ok h
    · exact h
  | unregister r =>
    simp only [act]
    split
    · exact obsRemove_inv r h
    · exact h

theorem acts_inv {x} : ∀ (b : List Act) {s}, Inv x s → Inv x (b.foldl act s)
  | [], _, h => h
  | a :: b, _, h => acts_inv b (act_inv a h)

theorem mem_list {s : St} {w : Bool} {c : Cb} (h : c ∈ s.list w) : c ∈ s.cbs := by
  unfold St.list at h
  unfold St.cbs
  rw [List.mem_append]
  cases w
  · exact Or.inl h
  · exact Or.inr h

theorem invoke_inv {w b c s s'} (h : Inv none s) (hc : c ∈ s.list w) (he : c.expired = true)
    (e : invoke w b c s = .ok s') : Inv (some c.id) s' := by
  unfold invoke at e
  split at e
  · cases e
  · injection e with e
    subst e
    exact acts_inv b (InvL.run h (mem_list hc) he)

theorem nodup_list {x s} (h : Inv x s) (w : Bool) : ((s.list w).map (·.id)).Nodup := by
  have := h.nodup
  rw [St.cbs, List.map_append] at this
  have := List.nodup_append.1 this
  cases w
  · exact this.1
  · exact this.2.1

theorem reset_append (i : Nat) (a b : List Cb) : reset i (a ++ b) = reset i a ++ reset i b := by
  unfold reset; rw [List.map_append]

theorem reset_not (i : Nat) (l : List Cb) (h : i ∉ l.map (·.id)) : reset i l = l := by
  unfold reset
  have : l.map (fun x => if x.id = i then { x with expired := false } else x) = l.map id := by
    apply List.map_congr_left
    intro x hx
    rw [if_neg (fun e => h (by rw [← e]; exact List.mem_map_of_mem hx))]
    rfl
  rw [this, List.map_id]

theorem InvL.same {x L n log} (h : InvL x L n log) {a b : Cb} (ha : a ∈ L) (hb : b ∈ L) (e : a.id = b.id) : a = b := by
  have : ∀ (l : List Cb), (l.map (·.id)).Nodup → a ∈ l → b ∈ l → a = b := by
    intro l
    induction l with
    | nil => intro _ h; cases h
    | cons d l ih =>
      intro hn ha hb
      have ⟨n1, n2⟩ := List.nodup_cons.1 hn
      rcases List.mem_cons.1 ha with rfl | ha' <;> rcases List.mem_cons.1 hb with rfl | hb'
      · rfl
      · exact absurd (by show a.id ∈ _; rw [e]; exact List.mem_map_of_mem hb') n1
      · exact absurd (by show b.id ∈ _; rw [← e]; exact List.mem_map_of_mem ha') n1
      · exact ih n2 ha' hb'
  exact this L h.nodup ha hb

theorem removedLog_id (o : Option Nat) {c d : Cb} (e : c.id = d.id) (e2 : c.data = d.data) : removedLog o c = removedLog o d := by
  unfold removedLog
  rw [e, e2]

/-- The data of the callback being processed is not changed by the user code. -/
theorem finish_inv {w dn c s s'} (h : Inv (some c.id) s) (hd : ∀ d ∈ s.list w, d.id = c.id → d.data = c.data)
    (e : finish w dn c s = .ok s') : Inv none s' := by
  unfold finish at e
  split at e
  · cases e
  · rename_i hex
    have hex : ∃ d, d ∈ s.list w ∧ d.id = c.id := by
      simp only [List.all_eq_true, bne_iff_ne, Classical.not_forall, Decidable.not_not] at hex
      obtain ⟨d, hm, e⟩ := hex
      exact ⟨d, hm, e⟩
    obtain ⟨d, hdm, hde⟩ := hex
    split at e
    · injection e with e
      subst e
      have hp := perm_filter_id hdm (nodup_list h w)
      rw [hde] at hp
      have : ∃ L, s.cbs.Perm (d :: L) ∧ L = (s.setList w ((s.list w).filter (fun x => x.id != c.id))).cbs := by
        refine ⟨_, ?_, rfl⟩
        cases w
        · exact hp.append_right s.obs
        · exact (hp.append_left s.timed).trans List.perm_middle
      obtain ⟨L, hL, hLe⟩ := this
      have h1 := InvL.perm h hL
      have hn : c.id ∉ L.map (·.id) := by
        rw [← hde]; exact (List.nodup_cons.1 h1.nodup).1
      have h2 := InvL.done (InvL.free s.onDel h1) hn
      rw [removedLog_id s.onDel hde (hd d hdm hde), hLe] at h2
      cases w
      · exact h2
      · exact h2
    · injection e with e
      subst e
      have h1 := InvL.again h
      have hn := h.nodup
      rw [St.cbs, List.map_append] at hn
      have hn := List.nodup_append.1 hn
      rw [St.cbs, reset_append] at h1
      cases w
      · have : c.id ∉ s.obs.map (·.id) := fun hm =>
          hn.2.2 d.id (List.mem_map_of_mem hdm) c.id hm hde
        rw [reset_not _ _ this] at h1
        exact h1
      · have : c.id ∉ s.timed.map (·.id) := fun hm =>
          hn.2.2 c.id hm d.id (List.mem_map_of_mem hdm) hde.symm
        rw [reset_not _ _ this] at h1
        exact h1

/-- What one call does to the list of kind `w`: callbacks are taken away, new ones are
not expired and have new numbers. -/
structure Evolve (w : Bool) (s s' : St) : Prop where
  next : s.next ≤ s'.next
  sub : ∃ l n, s'.list w = l ++ n ∧ l.Sublist (s.list w) ∧ ∀ c ∈ n, c.expired = false ∧ s.next ≤ c.id

theorem Evolve.refl (w : Bool) (s : St) : Evolve w s s := ⟨Nat.le_refl _, s.list w, [], by simp, List.Sublist.refl _, fun _ h => (by cases h)⟩

theorem Evolve.trans {w s s' s''} (h : Evolve w s s') (h' : Evolve w s' s'') : Evolve w s s'' := by
  obtain ⟨n1, l, n, e, hs, hn⟩ := h
  obtain ⟨n2, l', n', e', hs', hn'⟩ := h'
  refine ⟨Nat.le_trans n1 n2, ?_⟩
  rw [e] at hs'
  obtain ⟨a, b, e3, ha, hb⟩ := List.sublist_append_iff.1 hs'
  refine ⟨a, b ++ n', by rw [e', e3, List.append_assoc], ha.trans hs, ?_⟩
  intro c hc
  rcases List.mem_append.1 hc with hc | hc
  · exact hn c (hb.subset hc)
  · have := hn' c hc
    exact ⟨this.1, Nat.le_trans n1 this.2⟩

theorem Evolve.of_eq {w s s'} (h : s'.list w = s.list w) (hn : s'.next = s.next) : Evolve w s s' :=
  ⟨by omega, s.list w, [], by simp [h], List.Sublist.refl _, fun _ h => (by cases h)⟩

theorem act_evolve (w : Bool) (s : St) (a : Act) : Evolve w s (act s a) := by
  cases a with
  | add fn d ok =>
    simp only [act]
    split
    · cases w
      · exact ⟨Nat.le_succ _, s.timed, _, rfl, List.Sublist.refl _, fun c hc => by simp at hc; subst hc; exact ⟨rfl, Nat.le_refl _⟩⟩
      · exact ⟨Nat.le_succ _, s.obs, [], by simp [St.list, addTimed], List.Sublist.refl _, fun _ h => (by cases h)⟩
    · exact Evolve.refl w s
  | remove fn p all o =>
    have : Evolve w s { s with timed := (removeLoop s.cur fn p all s.timed false).1 } := by
      refine ⟨Nat.le_refl _, ?_⟩
      cases w
      · exact ⟨_, [], (List.append_nil _).symm, removeLoop_sub .., fun _ h => (by cases h)⟩
      · exact ⟨s.obs, [], by simp [St.list], List.Sublist.refl _, fun _ h => (by cases h)⟩
    refine this.trans ?_
    simp only [act, removeTimed]
    split
    · exact Evolve.of_eq rfl rfl
    · exact Evolve.of_eq rfl rfl
  | resAdd r =>
    simp only [act]
    split
    · exact Evolve.refl w s
    · exact Evolve.of_eq rfl rfl
  | resDel r => exact Evolve.of_eq rfl rfl
  | register r ok =>
    simp only [act]
    split
    · unfold obsAdd
      split
      · exact Evolve.of_eq rfl rfl
      split
      · cases w
        · exact ⟨Nat.le_succ _, s.timed, [], by simp [St.list], List.Sublist.refl _, fun _ h => (by cases h)⟩
        · exact ⟨Nat.le_succ _, s.obs, _, rfl, List.Sublist.refl _, fun c hc => by simp at hc; subst hc; exact ⟨rfl, Nat.le_refl _⟩⟩
      · exact Evolve.of_eq rfl rfl
    · exact Evolve.refl w s
  | unregister r =>
    simp only [act]
    split
    · unfold obsRemove
      split
      · exact Evolve.of_eq rfl rfl
      · refine ⟨Nat.le_refl _, ?_⟩
        cases w
        · exact ⟨s.timed, [], by simp [St.list], List.Sublist.refl _, fun _ h => (by cases h)⟩
        · exact ⟨_, [], (List.append_nil _).symm, List.filter_sublist, fun _ h => (by cases h)⟩
    · exact Evolve.refl w s

theorem acts_evolve (w : Bool) : ∀ (b : List Act) (s : St), Evolve w s (b.foldl act s)
  | [], s => Evolve.refl w s
  | a :: b, s => (act_evolve w s a).trans (acts_evolve w b _)

theorem invoke_evolve {w b c s s'} (v : Bool) (e : invoke w b c s = .ok s') : Evolve v s s' := by
  unfold invoke at e
  split at e
  · cases e
  · injection e with e
    subst e
    exact Evolve.trans (s' := { s with cur := some c.id, curDel := false, runs := s.runs + 1, log := s.log ++ [.ran c.id] })
      (Evolve.of_eq rfl rfl) (acts_evolve v b _)

theorem Evolve.data {x w s s'} (h : Evolve w s s') (hi : Inv x s) {c : Cb} (hc : c ∈ s.list w) :
    ∀ d ∈ s'.list w, d.id = c.id → d = c := by
  intro d hd e
  obtain ⟨l, n, e1, hs, hn⟩ := h.sub
  rw [e1] at hd
  rcases List.mem_append.1 hd with hd | hd
  · exact InvL.same hi (mem_list (hs.subset hd)) (mem_list hc) e
  · have := (hn d hd).2
    have := hi.lt c (mem_list hc)
    omega

theorem find_list {s : St} {w : Bool} {c : Cb} (h : (s.list w).find? (·.expired) = some c) : c ∈ s.list w ∧ c.expired = true :=
  ⟨List.mem_of_find?_eq_some h, by simpa using List.find?_some h⟩

theorem pollLoop_inv (beh : Nat → List Act × Bool) (w : Bool) : ∀ (k : Nat) {s s' : St}, Inv none s →
    pollLoop beh w k s = .ok s' → Inv none s'
  | 0, s, s', h, e => by injection e with e; subst e; exact h
  | k + 1, s, s', h, e => by
    rw [pollLoop] at e
    split at e
    · injection e with e; subst e; exact h
    · rename_i c hc
      have ⟨hm, he⟩ := find_list hc
      cases e1 : invoke w (beh s.runs).1 c s with
      | ub => rw [e1] at e; cases e
      | ok s1 =>
        rw [e1, Out.bind] at e
        cases e2 : finish w (beh s.runs).2 c s1 with
        | ub => rw [e2] at e; cases e
        | ok s2 =>
          rw [e2, Out.bind] at e
          have h1 := invoke_inv h hm he e1
          have h2 := finish_inv h1 (fun d hd e => by rw [(invoke_evolve w e1).data h hm d hd e]) e2
          exact pollLoop_inv beh w k h2 e

theorem pollTimers_inv {beh w s s'} (h : Inv none s) (e : pollTimers beh w s = .ok s') : Inv none s' := by
  unfold pollTimers at e
  cases e1 : pollLoop beh w ((s.list w).filter (·.expired)).length s with
  | ub => rw [e1] at e; cases e
  | ok s1 =>
    rw [e1, Out.bind] at e
    injection e with e
    subst e
    have : Inv none s1 := pollLoop_inv beh w _ h e1
    exact this

theorem poll_inv {beh s s'} (h : Inv none s) (e : poll beh s = .ok s') : Inv none s' := by
  unfold poll at e
  cases e1 : pollTimers beh true s with
  | ub => rw [e1] at e; cases e
  | ok s1 =>
    rw [e1, Out.bind] at e
    exact pollTimers_inv (pollTimers_inv h e1) e

theorem step_inv {beh s o s'} (h : Inv none s) (e : step beh s o = .ok s') : Inv none s' := by
  cases o with
  | act a => injection e with e; subst e; exact act_inv a h
  | expire w =>
    injection e with e; subst e
    have := InvL.expire w h
    have e1 : expireList w s.cbs = expireList w s.timed ++ expireList w s.obs := by
      unfold St.cbs expireList; rw [List.map_append]
    have e2 : dueLog w s.cbs = dueLog w s.timed ++ dueLog w s.obs := by
      unfold St.cbs dueLog; rw [List.filter_append, List.map_append]
    rw [e1, e2] at this
    exact this
  | poll => exact poll_inv h e

theorem init_inv : Inv none init where
  nodup := List.Pairwise.nil
  lt := fun c h => (by cases h)
  freed := fun i => rfl
  added := fun i => rfl
  due := fun c h => (by cases h)
  dueLe := fun i => Nat.le_refl _
  fresh := fun i _ => rfl
  order := fun a b i e => by cases a <;> cases e

theorem run_inv {beh} : ∀ (os : List Op) {s s'}, Inv none s → run beh s os = .ok s' → Inv none s'
  | [], s, s', h, e => by injection e with e; subst e; exact h
  | o :: os, s, s', h, e => by
    rw [run] at e
    cases e1 : step beh s o with
    | ub => rw [e1] at e; cases e
    | ok s1 =>
      rw [e1, Out.bind] at e
      exact run_inv os (step_inv h e1) e

/-! ## All due callbacks are served -/

/-- The number of callbacks in a list that are due. -/
def dueCount (l : List Cb) : Nat := (l.filter (·.expired)).length

theorem Evolve.dueCount {w s s'} (h : Evolve w s s') : dueCount (s'.list w) ≤ dueCount (s.list w) := by
  obtain ⟨l, n, e, hs, hn⟩ := h.sub
  have : n.filter (·.expired) = [] := by
    rw [List.filter_eq_nil_iff]
    intro c hc
    rw [(hn c hc).1]; simp
  unfold Delayed.dueCount
  rw [e, List.filter_append, this, List.append_nil]
  exact (hs.filter _).length_le

theorem setList_self (s : St) (w : Bool) (l : List Cb) : (s.setList w l).list w = l := by cases w <;> rfl
theorem setList_other (s : St) (w : Bool) (l : List Cb) : (s.setList w l).list (!w) = s.list (!w) := by cases w <;> rfl

theorem reset_dueCount_le (i : Nat) (l : List Cb) : dueCount (reset i l) ≤ dueCount l := by
  induction l with
  | nil => exact Nat.le_refl _
  | cons d l ih =>
    unfold dueCount reset at *
    rw [List.map_cons, List.filter_cons, List.filter_cons]
    by_cases hd : d.id = i
    · rw [if_pos hd]; cases d.expired <;> simp <;> omega
    · rw [if_neg hd]; cases d.expired <;> simp <;> omega

theorem finish_dueCount {w dn c s s'} (hx : ∀ d ∈ s.list w, d.id = c.id → d.expired = true)
    (e : finish w dn c s = .ok s') :
    dueCount (s'.list w) < dueCount (s.list w) ∧ s'.list (!w) = s.list (!w) := by
  unfold finish at e
  split at e
  · cases e
  · rename_i hex
    have hex : ∃ d, d ∈ s.list w ∧ d.id = c.id := by
      simp only [List.all_eq_true, bne_iff_ne, Classical.not_forall, Decidable.not_not] at hex
      obtain ⟨d, hm, e⟩ := hex
      exact ⟨d, hm, e⟩
    obtain ⟨d, hdm, hde⟩ := hex
    have hfl : ∀ (l : List Cb), d ∈ l → (∀ d ∈ l, d.id = c.id → d.expired = true) →
        dueCount (l.filter (fun x => x.id != c.id)) < dueCount l ∧ dueCount (reset c.id l) < dueCount l := by
      intro l
      induction l with
      | nil => intro h; cases h
      | cons y l ih =>
        intro hm hx
        have le1 : dueCount (l.filter (fun x => x.id != c.id)) ≤ dueCount l := (List.filter_sublist.filter _).length_le
        have le2 := reset_dueCount_le c.id l
        by_cases hy : y.id = c.id
        · have hex := hx y (List.mem_cons_self ..) hy
          have e3 : dueCount (y :: l) = dueCount l + 1 := by
            unfold dueCount
            rw [List.filter_cons_of_pos (a := y) hex, List.length_cons]
          rw [e3]
          unfold dueCount reset at *
          rw [List.map_cons, if_pos hy, List.filter_cons_of_neg (by simp [hy]), List.filter_cons_of_neg (by simp)]
          omega
        · have hm' : d ∈ l := by
            rcases List.mem_cons.1 hm with rfl | h
            · exact absurd hde hy
            · exact h
          have := ih hm' (fun d hd => hx d (List.mem_cons_of_mem _ hd))
          unfold dueCount reset at *
          rw [List.map_cons, if_neg hy, List.filter_cons_of_pos (a := y) (by simp [hy])]
          cases hye : y.expired
          · rw [List.filter_cons_of_neg (a := y) (by simp [hye]), List.filter_cons_of_neg (a := y) (by simp [hye]),
              List.filter_cons_of_neg (a := y) (by simp [hye])]
            exact this
          · rw [List.filter_cons_of_pos (a := y) (by simp [hye]), List.filter_cons_of_pos (a := y) (by simp [hye]),
              List.filter_cons_of_pos (a := y) (by simp [hye])]
            simp only [List.length_cons]
            omega
    have := hfl (s.list w) hdm hx
    split at e
    · injection e with e
      subst e
      refine ⟨?_, ?_⟩
      · have : ({ s.setList w ((s.list w).filter (fun x => x.id != c.id)) with log := s.log ++ removedLog s.onDel c } : St).list w =
            (s.list w).filter (fun x => x.id != c.id) := by cases w <;> rfl
        rw [this]; omega
      · cases w <;> rfl
    · injection e with e
      subst e
      refine ⟨?_, setList_other _ _ _⟩
      rw [setList_self]; exact this.2

theorem pollLoop_served (beh : Nat → List Act × Bool) (w : Bool) : ∀ (k : Nat) {s s' : St}, Inv none s →
    dueCount (s.list w) ≤ k → pollLoop beh w k s = .ok s' →
    dueCount (s'.list w) = 0 ∧ dueCount (s'.list (!w)) ≤ dueCount (s.list (!w))
  | 0, s, s', h, hk, e => by
    injection e with e; subst e
    exact ⟨by omega, Nat.le_refl _⟩
  | k + 1, s, s', h, hk, e => by
    rw [pollLoop] at e
    split at e
    · rename_i hf
      injection e with e; subst e
      refine ⟨?_, Nat.le_refl _⟩
      unfold dueCount
      rw [List.length_eq_zero_iff, List.filter_eq_nil_iff]
      exact fun c hc => by simpa using List.find?_eq_none.1 hf c hc
    · rename_i c hc
      have ⟨hm, he⟩ := find_list hc
      cases e1 : invoke w (beh s.runs).1 c s with
      | ub => rw [e1] at e; cases e
      | ok s1 =>
        rw [e1, Out.bind] at e
        cases e2 : finish w (beh s.runs).2 c s1 with
        | ub => rw [e2] at e; cases e
        | ok s2 =>
          rw [e2, Out.bind] at e
          have h1 := invoke_inv h hm he e1
          have hdat := (invoke_evolve w e1).data h hm
          have h2 := finish_inv h1 (fun d hd e => by rw [hdat d hd e]) e2
          have ⟨f1, f2⟩ := finish_dueCount (fun d hd e => by rw [hdat d hd e, he]) e2
          have v1 := (invoke_evolve w e1).dueCount
          have v2 := (invoke_evolve (!w) e1).dueCount
          have ih := pollLoop_served beh w k h2 (by omega) e
          rw [f2] at ih
          exact ⟨ih.1, by omega⟩

theorem pollTimers_served {beh w s s'} (h : Inv none s) (e : pollTimers beh w s = .ok s') :
    dueCount (s'.list w) = 0 ∧ dueCount (s'.list (!w)) ≤ dueCount (s.list (!w)) := by
  unfold pollTimers at e
  cases e1 : pollLoop beh w ((s.list w).filter (·.expired)).length s with
  | ub => rw [e1] at e; cases e
  | ok s1 =>
    rw [e1, Out.bind] at e
    injection e with e
    subst e
    have := pollLoop_served beh w _ h (Nat.le_refl _) e1
    cases w
    · exact this
    · exact this

theorem poll_served' {beh s s'} (h : Inv none s) (e : poll beh s = .ok s') : ∀ c ∈ s'.cbs, c.expired = false := by
  unfold poll at e
  cases e1 : pollTimers beh true s with
  | ub => rw [e1] at e; cases e
  | ok s1 =>
    rw [e1, Out.bind] at e
    have ⟨a1, _⟩ := pollTimers_served h e1
    have ⟨b1, b2⟩ := pollTimers_served (pollTimers_inv h e1) e
    have b2 : dueCount s'.obs ≤ dueCount s1.obs := b2
    have a1 : dueCount s1.obs = 0 := a1
    have b1 : dueCount s'.timed = 0 := b1
    have hz : ∀ l, dueCount l = 0 → ∀ c ∈ l, c.expired = false := by
      intro l hl c hc
      unfold dueCount at hl
      rw [List.length_eq_zero_iff, List.filter_eq_nil_iff] at hl
      simpa using hl c hc
    intro c hc
    rcases List.mem_append.1 hc with hc | hc
    · exact hz _ b1 c hc
    · exact hz _ (by omega) c hc

end Verif.Delayed
