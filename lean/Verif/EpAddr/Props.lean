import Verif.EpAddr.Lemmas
/-!
Properties of the list of servers.
-/
namespace Verif.EpAddr

/-- **C70.** Every call does what it means for the servers and keeps the invariant. -/
theorem step_refines {lim : Nat} {s : Addrs} (h : Inv lim s) {o : Op} {c : Change} (hm : Means s o c) :
    ∃ ok s', step lim s o = .ok (ok, s') ∧ Inv lim s' ∧ Does lim (servers s) c ok (servers s') := by
  have hd0 := inv_drop h
  have restart : ∀ (m : Bool) (d : View), ∃ ok s', init lim m s d = .ok (ok, s') ∧ Inv lim s' ∧
      Does lim (servers s) (.restart m (d.uri, d.tag)) ok (servers s') := by
    intro m d
    unfold init
    by_cases hd : d.uri = []
    · simp only [hd, List.length_nil, gt_iff_lt, Nat.lt_irrefl, if_false]
      exact ⟨_, _, rfl, hd0, by simp [Does, servers]⟩
    · have hl : d.uri.length > 0 := List.length_pos_iff.2 hd
      simp only [if_pos hl, allocAdd_eq hd0]
      by_cases hf : m = true ∧ Fits lim d.uri
      · rw [if_pos hf]
        refine ⟨_, _, rfl, ?_, ?_⟩
        · exact inv_new hd0 hf.2 (by simp) _ _ (Or.inl ⟨by simp, rfl⟩)
        · simp [Does, servers, hd, Adds, hf]
      · rw [if_neg hf]
        refine ⟨_, _, rfl, hd0, ?_⟩
        refine ⟨rfl, ?_⟩
        rw [if_neg hd]
        unfold Adds
        rw [if_neg (fun e => hf ⟨e.1, e.2.1⟩)]
        exact ⟨rfl, rfl⟩
  cases o with
  | init m d =>
    simp only [Means] at hm; subst hm
    exact restart m d
  | reinit m d =>
    simp only [Means] at hm; subst hm
    exact restart m d
  | deinit =>
    simp only [Means] at hm; subst hm
    exact ⟨_, _, rfl, hd0, by simp [Does, servers, deinit]⟩
  | clear =>
    simp only [Means] at hm; subst hm
    simp only [step, clear, select']
    by_cases hs : s.sel = none
    · simp only [if_pos hs]
      have := h.none_iff.1 hs
      refine ⟨_, _, rfl, ?_, by simp [Does, servers, hs]⟩
      rw [← hs] at hd0; exact hd0
    · simp only [if_neg hs]
      exact ⟨_, _, rfl, ⟨by simp, by simp, by simp, by simp, by simp, by simp⟩, by simp [Does, servers]⟩
  | add m v =>
    simp only [Means] at hm; subst hm
    simp only [step, add_eq h]
    have hiff : (¬ ∃ i ∈ s.items, i.uri = v.uri) ↔ v.uri ∉ (servers s).all.map (·.1) := by
      simp [servers]
    by_cases hf : m = true ∧ Fits lim v.uri ∧ ¬ ∃ i ∈ s.items, i.uri = v.uri
    · rw [if_pos hf]
      refine ⟨_, _, rfl, ?_, ?_⟩
      · refine inv_new h hf.2.1 hf.2.2 _ _ ?_
        by_cases hs : s.sel = none
        · exact Or.inl ⟨if_pos hs, h.none_iff.1 hs⟩
        · exact Or.inr ⟨if_neg hs, hs⟩
      · simp only [Does, Adds]
        rw [if_pos ⟨hf.1, hf.2.1, hiff.1 hf.2.2⟩]
        refine ⟨⟨rfl, by simp [servers]⟩, ?_⟩
        cases hs : s.sel with
        | none => simp [servers, hs, h.none_iff.1 hs]
        | some p =>
          obtain ⟨i, hi, e⟩ := h.mem p hs
          simp only [servers, hs, reduceCtorEq, if_false]
          rw [List.findIdx_append, if_pos]
          exact List.findIdx_lt_length.2 ⟨i, hi, by simp [e]⟩
    · rw [if_neg hf]
      refine ⟨_, _, rfl, h, ?_⟩
      simp only [Does, Adds]
      rw [if_neg (fun e => hf ⟨e.1, e.2.1, hiff.2 e.2.2⟩)]
      simp
  | remove p =>
    cases p with
    | other =>
      simp only [Means] at hm; subst hm
      exact ⟨_, _, rfl, h, by simp [Does]⟩
    | mine p =>
      simp only [Means] at hm
      obtain ⟨k, ⟨i, hi, hp, _⟩, rfl⟩ := hm
      obtain ⟨s', e, hI, ha, hc, _⟩ := remove_eq h hi
      subst hp
      exact ⟨_, s', e, hI, rfl, ha, hc⟩
  | removeByUri u =>
    simp only [Means] at hm
    obtain ⟨k, hk, rfl⟩ := hm
    simp only [step, removeByUri, find]
    have := find_first (f := fun i => i.uri == u) (k := k) (l := s.items)
      (by cases k <;> simpa [First] using hk)
    rw [this]
    cases k with
    | none => exact ⟨_, _, rfl, h, by simp [Does]⟩
    | some k =>
      obtain ⟨i, hi, _, _⟩ := hk
      simp only [Option.bind_some, hi, Option.map_some]
      obtain ⟨s', e, hI, ha, hc, _⟩ := remove_eq h hi
      exact ⟨_, s', e, hI, rfl, ha, hc⟩
  | select p =>
    cases p with
    | other =>
      simp only [Means] at hm; subst hm
      exact ⟨_, _, rfl, h, by simp [Does]⟩
    | mine p =>
      simp only [Means] at hm
      obtain ⟨k, hk, rfl⟩ := hm
      simp only [step, select]
      cases k with
      | none =>
        have : (s.items.any fun i => i.id == p) = false := by
          simpa [First] using hk
        rw [this]
        exact ⟨_, _, rfl, h, by simp [Does]⟩
      | some k =>
        obtain ⟨i, hi, hp, _⟩ := hk
        have : (s.items.any fun i => i.id == p) = true := by
          simp only [List.any_eq_true, beq_iff_eq]
          exact ⟨i, List.mem_of_getElem? hi, hp⟩
        rw [this, if_pos rfl]
        obtain ⟨hI, hsv⟩ := select'_inv h hi
        rw [hp] at hI hsv
        exact ⟨_, _, rfl, hI, by rw [hsv]; simp [Does]⟩
  | selectByUri u =>
    simp only [Means] at hm
    obtain ⟨k, hk, rfl⟩ := hm
    simp only [step, selectByUri, find]
    have := find_first (f := fun i => i.uri == u) (k := k) (l := s.items)
      (by cases k <;> simpa [First] using hk)
    rw [this]
    cases k with
    | none => exact ⟨_, _, rfl, h, by simp [Does]⟩
    | some k =>
      obtain ⟨i, hi, _, _⟩ := hk
      simp only [Option.bind_some, hi, Option.map_some]
      obtain ⟨hI, hsv⟩ := select'_inv h hi
      exact ⟨_, _, rfl, hI, by rw [hsv]; simp [Does]⟩
  | selectNext =>
    simp only [Means] at hm; subst hm
    simp only [step, selectNext]
    cases hs : s.sel with
    | none =>
      have := h.none_iff.1 hs
      exact ⟨_, _, rfl, h, by simp [Does, servers, this]⟩
    | some p =>
      obtain ⟨k, i, hi, hp, hc⟩ := sel_pos h hs
      have hk := (List.getElem?_eq_some_iff.1 hi).1
      have hlen : (servers s).all.length = s.items.length := by simp [servers]
      have hne : (servers s).all ≠ [] := by
        rw [← List.length_pos_iff, hlen]; omega
      subst hp
      simp only [nextOf_at h.ids hi, Out.bind]
      by_cases hl : k + 1 < s.items.length
      · have hnx : s.items[k + 1]? = some s.items[k + 1] := by simp [hl]
        have ho : orHead s (s.items[k + 1]?.map (·.id)) = some s.items[k + 1].id := by rw [hnx]; rfl
        rw [ho]
        obtain ⟨hI, hsv⟩ := select'_inv h hnx
        have hd : s.sel ≠ some s.items[k + 1].id := by
          rw [hs]; simp only [ne_eq, Option.some.injEq]
          intro e
          have := id_inj h hi hnx e; omega
        refine ⟨(select' s (some s.items[k + 1].id)).1, (select' s (some s.items[k + 1].id)).2, rfl, hI, ?_⟩
        rw [hsv]
        simp only [Does, if_neg hne, hlen, hc, Nat.mod_eq_of_lt hl, true_and]
        rw [select'_ne hd]
        simp; omega
      · have hnx : s.items[k + 1]? = none := by simp; omega
        have hkl : k + 1 = s.items.length := by omega
        cases hh : s.items with
        | nil => rw [hh] at hk; simp at hk
        | cons b l =>
          have hb : s.items[0]? = some b := by rw [hh]; rfl
          have ho : orHead s ((b :: l)[k + 1]?.map (·.id)) = some b.id := by
            rw [← hh, hnx]; simp [orHead, hh]
          rw [ho]
          obtain ⟨hI, hsv⟩ := select'_inv h hb
          refine ⟨(select' s (some b.id)).1, (select' s (some b.id)).2, rfl, hI, ?_⟩
          rw [hsv]
          simp only [Does, if_neg hne, hlen, hc, hkl, Nat.mod_self, true_and]
          unfold select'
          by_cases hd : s.sel = some b.id
          · rw [if_pos hd]
            rw [hs] at hd
            have := id_inj h hi hb (by simpa using hd)
            simp; omega
          · rw [if_neg hd]
            have : k ≠ 0 := by
              rintro rfl
              rw [hb] at hi; cases hi
              exact hd hs
            simp; omega

/-- Every call has a meaning, but for removing an item that is gone. -/
theorem means_exists (s : Addrs) (o : Op)
    (ho : ∀ p, o = .remove (.mine p) → ∃ i ∈ s.items, i.id = p) : ∃ c, Means s o c := by
  have hf : ∀ (f : Item → Prop) [DecidablePred f] (l : List Item), ∃ k, First f l k := by
    intro f _ l
    induction l with
    | nil => exact ⟨none, by simp [First]⟩
    | cons a l ih =>
      by_cases ha : f a
      · exact ⟨some 0, a, rfl, ha, by intro j hj; omega⟩
      · obtain ⟨k, hk⟩ := ih
        cases k with
        | none => exact ⟨none, by simpa [First, ha] using hk⟩
        | some k =>
          obtain ⟨i, hi, hfi, hj⟩ := hk
          refine ⟨some (k + 1), i, by simpa using hi, hfi, ?_⟩
          intro j hjk x hx
          cases j with
          | zero => simp at hx; subst hx; exact ha
          | succ j => exact hj j (by omega) x (by simpa using hx)
  cases o with
  | remove p =>
    cases p with
    | other => exact ⟨_, rfl⟩
    | mine p =>
      obtain ⟨i, hi, e⟩ := ho p rfl
      obtain ⟨k, hk⟩ := hf (·.id = p) s.items
      cases k with
      | none => exact absurd e (hk i hi)
      | some k => exact ⟨_, k, hk, rfl⟩
  | select p =>
    cases p with
    | other => exact ⟨_, rfl⟩
    | mine p =>
      obtain ⟨k, hk⟩ := hf (·.id = p) s.items
      exact ⟨_, k, hk, rfl⟩
  | removeByUri u =>
    obtain ⟨k, hk⟩ := hf (·.uri = u) s.items
    exact ⟨_, k, hk, rfl⟩
  | selectByUri u =>
    obtain ⟨k, hk⟩ := hf (·.uri = u) s.items
    exact ⟨_, k, hk, rfl⟩
  | _ => exact ⟨_, rfl⟩

/-- The histories in which only items of the list are removed. -/
def Allowed (lim : Nat) : Addrs → List Op → Prop
  | _, [] => True
  | s, o :: os => (∀ p, o = .remove (.mine p) → ∃ i ∈ s.items, i.id = p) ∧
      ∀ ok s', step lim s o = .ok (ok, s') → Allowed lim s' os

/-- **C70.** After every history: the uris are distinct and fit, there is a selected
server exactly if there is a server, it is one of the list, and it can be read.  No
history that removes only items of the list is undefined. -/
theorem run_inv {lim : Nat} : ∀ (os : List Op) {s : Addrs}, Inv lim s → Allowed lim s os →
    ∃ s', run lim s os = .ok s' ∧ Inv lim s'
  | [], s, h, _ => ⟨s, rfl, h⟩
  | o :: os, s, h, ha => by
    obtain ⟨c, hc⟩ := means_exists s o ha.1
    obtain ⟨ok, s', e, hI, _⟩ := step_refines h hc
    obtain ⟨s'', e', hI'⟩ := run_inv os hI (ha.2 ok s' e)
    exact ⟨s'', by simp only [run, e, Out.bind, e'], hI'⟩

/-- **C70.** What a user sees after every history. -/
theorem history {lim : Nat} (os : List Op) (ha : Allowed lim {} os) :
    ∃ s, run lim {} os = .ok s ∧
      ((s.items.map (·.uri)).Nodup) ∧ (∀ i ∈ s.items, 0 < i.uri.length ∧ i.uri.length < lim) ∧
      (s.items = [] → selected s = .ok none) ∧
      (s.items ≠ [] → ∃ i ∈ s.items, selected s = .ok (some i)) := by
  obtain ⟨s, e, h⟩ := run_inv os (inv_init lim) ha
  refine ⟨s, e, ?_, h.fits, ?_, ?_⟩
  · exact List.pairwise_map.2 h.uris
  · intro hn; simp [selected, h.none_iff.2 hn]
  · intro hn
    cases hs : s.sel with
    | none => exact absurd (h.none_iff.1 hs) hn
    | some p =>
      obtain ⟨i, hi, hp⟩ := h.mem p hs
      cases hf : s.items.find? fun i => i.id == p with
      | none => simp at hf; exact absurd hp (hf i hi)
      | some j =>
        exact ⟨j, List.mem_of_find?_eq_some hf, by simp [selected, hs, hf]⟩

/-- **C70.** The callback for a changed selection is called once if the selected item
changes and not else, but for starting over. -/
theorem calls_changed {lim : Nat} {s s' : Addrs} (h : Inv lim s) {o : Op} {c : Change}
    (hm : Means s o c) (ho : ∀ m d, o ≠ .init m d ∧ o ≠ .reinit m d ∧ o ≠ .deinit) {ok : Bool}
    (e : step lim s o = .ok (ok, s')) :
    s'.calls = s.calls + (if s'.sel = s.sel then 0 else 1) := by
  have hsel : ∀ p : Option Nat, (select' s p).2.calls =
      s.calls + (if (select' s p).2.sel = s.sel then 0 else 1) := by
    intro p
    unfold select'
    by_cases hp : s.sel = p
    · simp [hp]
    · rw [if_neg hp]; simp only; rw [if_neg (Ne.symm hp)]
  have hrem : ∀ {k : Nat} {i : Item}, s.items[k]? = some i → ∀ {r : Bool} {s' : Addrs},
      remove s (.mine i.id) = .ok (r, s') → s'.calls = s.calls + (if s'.sel = s.sel then 0 else 1) := by
    intro k i hi r s' e
    obtain ⟨s1, e1, _, _, _, hc⟩ := remove_eq h hi
    rw [e1] at e; cases e; exact hc
  cases o with
  | init m d => exact absurd rfl (ho m d).1
  | reinit m d => exact absurd rfl (ho m d).2.1
  | deinit => exact absurd rfl (ho true ⟨[], .name none⟩).2.2
  | clear =>
    simp only [step, Out.ok.injEq, Prod.mk.injEq] at e
    obtain ⟨_, rfl⟩ := e
    simp only [clear, select']
    by_cases hp : s.sel = none
    · simp only [if_pos hp]; simp
    · simp only [if_neg hp]; rw [if_neg (Ne.symm hp)]
  | add m v =>
    simp only [step, add_eq h] at e
    split at e
    · simp only [Out.bind, Out.ok.injEq, Prod.mk.injEq] at e
      obtain ⟨_, rfl⟩ := e
      by_cases hs : s.sel = none <;> simp [hs]
    · simp only [Out.bind, Out.ok.injEq, Prod.mk.injEq] at e
      obtain ⟨_, rfl⟩ := e
      simp
  | remove p =>
    cases p with
    | other => cases e; simp
    | mine p =>
      obtain ⟨k, ⟨i, hi, hp, _⟩, _⟩ := hm
      subst hp
      exact hrem hi e
  | removeByUri u =>
    obtain ⟨k, hk, _⟩ := hm
    simp only [step, removeByUri, find] at e
    have := find_first (f := fun i => i.uri == u) (k := k) (l := s.items)
      (by cases k <;> simpa [First] using hk)
    rw [this] at e
    cases k with
    | none => cases e; simp
    | some k =>
      obtain ⟨i, hi, _, _⟩ := hk
      simp only [Option.bind_some, hi, Option.map_some] at e
      exact hrem hi e
  | select p =>
    simp only [step, Out.ok.injEq] at e
    cases p with
    | other => cases e; simp
    | mine p =>
      simp only [select] at e
      split at e
      · cases e; exact hsel _
      · cases e; simp
  | selectByUri u =>
    simp only [step, Out.ok.injEq, selectByUri] at e
    split at e
    · cases e; simp
    · cases e; exact hsel _
  | selectNext =>
    simp only [step, selectNext] at e
    split at e
    · cases e; simp
    · rename_i p hp
      cases hn : nextOf p s.items with
      | ub => rw [hn] at e; cases e
      | ok n =>
        rw [hn] at e
        simp only [Out.bind, Out.ok.injEq] at e
        have := hsel (orHead s n)
        rw [e] at this
        exact this

/-- `n` calls of select-next. -/
def nexts (lim : Nat) : Nat → Addrs → Out Addrs
  | 0, s => .ok s
  | n + 1, s => (step lim s .selectNext).bind fun r => nexts lim n r.2

/-- **C70.** Selecting the next server `n` times selects the server `n` places on, in
the order of the list and around its end: all servers get their turn. -/
theorem nexts_cycle {lim : Nat} : ∀ (n : Nat) {s : Addrs}, Inv lim s → s.items ≠ [] →
    ∃ s', nexts lim n s = .ok s' ∧ Inv lim s' ∧ (servers s').all = (servers s).all ∧
      (servers s').cur = ((servers s).cur + n) % s.items.length
  | 0, s, h, hne => ⟨s, rfl, h, rfl, by
      rw [Nat.add_zero, Nat.mod_eq_of_lt (cur_lt h hne)]⟩
  | n + 1, s, h, hne => by
    obtain ⟨ok, s1, e, hI, ha, hc, _⟩ := step_refines h (o := .selectNext) rfl
    have hlen : (servers s).all.length = s.items.length := by simp [servers]
    have hne' : (servers s).all ≠ [] := by simpa [servers] using hne
    have hl1 : s1.items.length = s.items.length := by
      have := congrArg List.length ha; simpa [servers] using this
    obtain ⟨s2, e2, hI2, ha2, hc2⟩ := nexts_cycle n hI (by
      rw [← List.length_pos_iff, hl1, List.length_pos_iff]; exact hne)
    refine ⟨s2, by simp only [nexts, e, Out.bind, e2], hI2, ha2.trans ha, ?_⟩
    rw [hc2, hc, if_neg hne', hl1, hlen, Nat.mod_add_mod]
    congr 1; omega

/-- **C70, counterexample.** Removing an item that was removed before is undefined:
its memory is read before the list is searched. -/
theorem remove_gone_ub : run 100 {} [.add true ⟨[97], .name none⟩, .remove (.mine 0), .remove (.mine 0)]
    = .ub := by decide +kernel

/-- **C70, counterexample.** Starting over without a default server changes the
selected server to none, but the callback is not called. -/
theorem calls_reinit_false : ∃ s s', Inv 100 s ∧ step 100 s (.reinit true ⟨[], .name none⟩) = .ok (true, s') ∧
    s'.sel ≠ s.sel ∧ s'.calls = s.calls := by
  obtain ⟨s, e, h⟩ := run_inv (lim := 100) [.add true ⟨[97], .name none⟩] (inv_init 100)
    ⟨by simp, by intros; trivial⟩
  have e' : run 100 {} [.add true ⟨[97], .name none⟩] = .ok ⟨[⟨0, [97], .name none⟩], some 0, 1, 1⟩ := by
    decide +kernel
  rw [e'] at e; cases e
  exact ⟨_, _, h, rfl, by decide, rfl⟩

/-- Three servers are added, the second is selected and removed, then the next one is
selected: the servers and the selection at the end. -/
example : ∃ s, run 100 {} [.add true ⟨[97], .uuid [1]⟩, .add true ⟨[98], .uuid [2]⟩,
      .add true ⟨[99], .uuid [3]⟩, .add true ⟨[97], .uuid [4]⟩, .selectByUri [98],
      .remove (.mine 1), .selectNext] = .ok s ∧
    servers s = ⟨[([97], .uuid [1]), ([99], .uuid [3])], 0⟩ ∧ s.calls = 4 := by
  refine ⟨_, rfl, ?_, ?_⟩ <;> decide +kernel

/-- The history above is allowed. -/
example : Allowed 100 {} [.add true ⟨[97], .uuid [1]⟩, .add true ⟨[98], .uuid [2]⟩,
    .selectByUri [98], .remove (.mine 1), .selectNext] := by
  refine ⟨by simp, fun ok s e => ?_⟩
  cases e
  refine ⟨by simp, fun ok s e => ?_⟩
  cases e
  refine ⟨by simp, fun ok s e => ?_⟩
  cases e
  refine ⟨fun p hp => ⟨⟨1, [98], .uuid [2]⟩, by decide +kernel, by cases hp; rfl⟩, fun ok s e => ?_⟩
  cases e
  exact ⟨by simp, fun _ _ _ => trivial⟩

end Verif.EpAddr
