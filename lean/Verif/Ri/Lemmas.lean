import Verif.Ri.Spec
import Verif.Query.Props

/-! Lemmas about the dispatch of requests. -/

namespace Verif.Ri

open Verif.Rep (Bytes b)
open Spec (Proper bare)

/-! ### Paths -/

theorem skipAll_some (p after : Bytes) (h : bare p ≠ []) : skipAll p after = .ok (some (bare p)) := by
  induction p with
  | nil => exact absurd rfl h
  | cons c r ih =>
    unfold skipAll bare
    by_cases hc : c = slash
    · subst hc
      simp only [if_true]
      rw [List.dropWhile_cons]
      simp only [beq_self_eq_true, if_true]
      exact ih (by
        intro h'
        apply h
        unfold bare
        rw [List.dropWhile_cons]
        simp only [beq_self_eq_true, if_true]
        exact h')
    · rw [if_neg hc, List.dropWhile_cons]
      have : (c == slash) = false := by simpa using hc
      rw [this]
      rfl

theorem skipAll_nul (p : Bytes) : skipAll p [0] = .ok (some (bare p)) := by
  induction p with
  | nil => rfl
  | cons c r ih =>
    unfold skipAll bare
    by_cases hc : c = slash
    · subst hc
      simp only [if_true]
      rw [List.dropWhile_cons]
      simp only [beq_self_eq_true, if_true]
      exact ih
    · rw [if_neg hc, List.dropWhile_cons]
      have : (c == slash) = false := by simpa using hc
      rw [this]
      rfl

theorem skipAll_val (p after : Bytes) (x : Option Bytes) (h : skipAll p after = .ok x) :
    x = none ∨ x = some (bare p) := by
  induction p with
  | nil =>
    unfold skipAll at h
    cases after with
    | nil => cases h
    | cons c r =>
      dsimp only at h
      by_cases hc : c = slash
      · rw [if_pos hc] at h
        left
        clear hc
        induction r with
        | nil => cases h
        | cons d r ih =>
          unfold skipAll.go at h
          by_cases hd : d = slash
          · rw [if_pos hd] at h
            exact ih h
          · rw [if_neg hd] at h
            injection h with h
            exact h.symm
      · rw [if_neg hc] at h
        injection h with h
        right
        exact h.symm
  | cons c r ih =>
    unfold skipAll at h
    by_cases hc : c = slash
    · rw [if_pos hc] at h
      rcases ih h with h | h
      · exact Or.inl h
      · right
        rw [h]
        unfold bare
        rw [List.dropWhile_cons]
        subst hc
        simp
    · rw [if_neg hc] at h
      injection h with h
      right
      rw [← h]
      unfold bare
      rw [List.dropWhile_cons]
      have : (c == slash) = false := by simpa using hc
      rw [this]
      rfl

theorem bare_proper (t : Bytes) (h : t.head? ≠ some slash) : bare (slash :: t) = t := by
  unfold bare
  rw [List.dropWhile_cons]
  simp only [beq_self_eq_true, if_true]
  cases t with
  | nil => rfl
  | cons c r =>
    rw [List.dropWhile_cons]
    have : (c == slash) = false := by
      simp only [List.head?_cons, ne_eq, Option.some.injEq] at h
      simpa using h
    rw [this]
    rfl

theorem bare_plain (t : Bytes) (h : t.head? ≠ some slash) : bare t = t := by
  unfold bare
  cases t with
  | nil => rfl
  | cons c r =>
    rw [List.dropWhile_cons]
    have : (c == slash) = false := by
      simp only [List.head?_cons, ne_eq, Option.some.injEq] at h
      simpa using h
    rw [this]
    rfl

theorem sameTail_proper (u : Bytes) (hu : Proper u) (dev : Nat) (r : Res) (hr : Proper r.uri) :
    sameTail (some (bare u)) dev r = true ↔ r.dev = dev ∧ r.uri = u := by
  obtain ⟨t, rfl, ht⟩ := hu
  obtain ⟨v, hv, hv'⟩ := hr
  rw [bare_proper t ht]
  unfold sameTail
  rw [hv]
  simp only [List.length_cons, List.drop_succ_cons, List.drop_zero, Bool.and_eq_true, beq_iff_eq]
  constructor
  · rintro ⟨hd, _, he⟩
    exact ⟨hd, by rw [he]⟩
  · rintro ⟨hd, he⟩
    injection he with _ he
    subst he
    exact ⟨hd, rfl, rfl⟩

/-- Whether a URI is in use, said without the lists' functions. -/
theorem inUse_spec (c : Core) (s : Reg) (u : Bytes) (hu : Proper u) (dev : Nat)
    (hp : ∀ r ∈ s.app ++ s.del ++ s.cols, Proper r.uri) :
    ∃ x, inUse c s u dev = .ok x ∧
      (x = true ↔ (c.find u dev).isSome = true ∨ ∃ r ∈ s.app ++ s.del ++ s.cols, r.dev = dev ∧ r.uri = u) := by
  have hany : ∀ l : List Res, (∀ r ∈ l, Proper r.uri) →
      (l.any (sameTail (some (bare u)) dev) = true ↔ ∃ r ∈ l, r.dev = dev ∧ r.uri = u) := by
    intro l hl
    rw [List.any_eq_true]
    constructor
    · rintro ⟨r, hr, h⟩
      exact ⟨r, hr, (sameTail_proper u hu dev r (hl r hr)).1 h⟩
    · rintro ⟨r, hr, h⟩
      exact ⟨r, hr, (sameTail_proper u hu dev r (hl r hr)).2 h⟩
  have ha := hany s.app fun r hr => hp r (by simp [hr])
  have hd := hany s.del fun r hr => hp r (by simp [hr])
  have hc := hany s.cols fun r hr => hp r (by simp [hr])
  unfold inUse
  by_cases hcore : (c.find u dev).isSome = true
  · rw [if_pos hcore]
    exact ⟨true, rfl, by simp [hcore]⟩
  · rw [if_neg hcore]
    unfold inList colFind
    rw [skipAll_nul]
    simp only [Out.bind]
    by_cases h1 : s.app.any (sameTail (some (bare u)) dev) = true
    · rw [if_pos h1]
      obtain ⟨r, hr, h⟩ := ha.1 h1
      exact ⟨true, rfl, by simp only [true_iff]; exact Or.inr ⟨r, by simp [hr], h⟩⟩
    · rw [if_neg h1]
      by_cases h2 : s.del.any (sameTail (some (bare u)) dev) = true
      · rw [if_pos h2]
        obtain ⟨r, hr, h⟩ := hd.1 h2
        exact ⟨true, rfl, by simp only [true_iff]; exact Or.inr ⟨r, by simp [hr], h⟩⟩
      · rw [if_neg h2]
        refine ⟨_, rfl, ?_⟩
        rw [List.find?_isSome, ← List.any_eq_true, hc]
        constructor
        · rintro ⟨r, hr, h⟩
          exact Or.inr ⟨r, by simp [hr], h⟩
        · rintro (h | ⟨r, hr, h⟩)
          · exact absurd h hcore
          · rcases List.mem_append.1 hr with hr | hr
            · rcases List.mem_append.1 hr with hr | hr
              · exact absurd (ha.2 ⟨r, hr, h⟩) h1
              · exact absurd (hd.2 ⟨r, hr, h⟩) h2
            · exact ⟨r, hr, h⟩

/-! ### The registry -/

/-- Resources are told apart by device and URI. -/
def Uniq (l : List Res) : Prop := l.Pairwise fun a b => ¬ (a.dev = b.dev ∧ a.uri = b.uri)

/-- What holds of the lists at all times. -/
structure Inv (c : Core) (s : Reg) : Prop where
  proper : ∀ r ∈ s.app ++ s.del ++ s.cols, Proper r.uri
  uniq : Uniq (s.app ++ s.cols)
  core : ∀ r ∈ s.app ++ s.cols, c.find r.uri r.dev = none

/-- The operations an application may do: URIs begin with one slash. -/
def Op.Proper : Op → Prop
  | .add r => Spec.Proper r.uri
  | .addCol r => Spec.Proper r.uri
  | .later r => Spec.Proper r.uri
  | _ => True

theorem inv_empty (c : Core) : Inv c empty :=
  ⟨by simp [empty], by simp [empty, Uniq], by simp [empty]⟩

theorem uniq_sub {l m : List Res} (h : l.Sublist m) (hm : Uniq m) : Uniq l := List.Pairwise.sublist h hm

/-- The lists shrink. -/
theorem inv_shrink {c : Core} {s : Reg} (h : Inv c s) (app del cols : List Res)
    (ha : app.Sublist s.app) (hd : ∀ r ∈ del, Proper r.uri) (hc : cols.Sublist s.cols) :
    Inv c ⟨app, del, cols⟩ := by
  refine ⟨?_, uniq_sub (List.Sublist.append ha hc) h.uniq, ?_⟩
  · intro r hr
    rcases List.mem_append.1 hr with hr | hr
    · rcases List.mem_append.1 hr with hr | hr
      · exact h.proper r (by simp [ha.subset hr])
      · exact hd r hr
    · exact h.proper r (by simp [hc.subset hr])
  · intro r hr
    exact h.core r ((List.Sublist.append ha hc).subset hr)

theorem pairwise_insert {P : Res → Res → Prop} (hs : ∀ a b, P a b → P b a) (l m : List Res) (r : Res)
    (h : (l ++ m).Pairwise P) (hr : ∀ x ∈ l ++ m, P x r) : (l ++ [r] ++ m).Pairwise P := by
  rw [List.append_assoc, List.pairwise_append]
  rw [List.pairwise_append] at h
  refine ⟨h.1, ?_, ?_⟩
  · rw [List.singleton_append, List.pairwise_cons]
    exact ⟨fun x hx => hs _ _ (hr x (by simp [hx])), h.2.1⟩
  · intro a ha x hx
    rw [List.singleton_append] at hx
    rcases List.mem_cons.1 hx with rfl | hx
    · exact hr a (by simp [ha])
    · exact h.2.2 a ha x hx

theorem exec_inv (c : Core) (s : Reg) (h : Inv c s) (o : Op) (ho : o.Proper) :
    ∃ t, exec c s o = .ok t ∧ Inv c t := by
  have hsym : ∀ a b : Res, ¬ (a.dev = b.dev ∧ a.uri = b.uri) → ¬ (b.dev = a.dev ∧ b.uri = a.uri) :=
    fun a b h h' => h ⟨h'.1.symm, h'.2.symm⟩
  cases o with
  | add r =>
    show ∃ t, (addRes c s r).bind (fun x => .ok x.2) = .ok t ∧ Inv c t
    unfold addRes
    split
    · exact ⟨s, rfl, h⟩
    · split
      · exact ⟨s, rfl, h⟩
      · split
        · exact ⟨s, rfl, h⟩
        · split
          · exact ⟨s, rfl, h⟩
          · obtain ⟨x, hx, hx'⟩ := inUse_spec c s r.uri ho r.dev h.proper
            rw [hx]
            cases x with
            | true => exact ⟨s, rfl, h⟩
            | false =>
              have hn : ¬ ((c.find r.uri r.dev).isSome = true ∨
                  ∃ y ∈ s.app ++ s.del ++ s.cols, y.dev = r.dev ∧ y.uri = r.uri) := by
                intro hh
                exact Bool.noConfusion (hx'.2 hh)
              refine ⟨_, rfl, ?_, ?_, ?_⟩
              · intro y hy
                simp only [List.mem_append, List.mem_singleton] at hy
                rcases hy with ((hy | rfl) | hy) | hy
                · exact h.proper y (by simp [hy])
                · exact ho
                · exact h.proper y (by simp [hy])
                · exact h.proper y (by simp [hy])
              · refine pairwise_insert hsym _ _ _ h.uniq ?_
                intro y hy hyy
                apply hn
                right
                refine ⟨y, ?_, hyy⟩
                rcases List.mem_append.1 hy with hy | hy <;> simp [hy]
              · intro y hy
                simp only [List.mem_append, List.mem_singleton] at hy
                rcases hy with (hy | rfl) | hy
                · exact h.core y (by simp [hy])
                · cases hf : c.find y.uri y.dev with
                  | none => rfl
                  | some z => exact absurd (Or.inl (by rw [hf]; rfl)) hn
                · exact h.core y (by simp [hy])
  | addCol r =>
    show ∃ t, (addCol c s r).bind (fun x => .ok x.2) = .ok t ∧ Inv c t
    unfold addCol
    split
    · exact ⟨s, rfl, h⟩
    · obtain ⟨x, hx, hx'⟩ := inUse_spec c s r.uri ho r.dev h.proper
      rw [hx]
      cases x with
      | true => exact ⟨s, rfl, h⟩
      | false =>
        have hn : ¬ ((c.find r.uri r.dev).isSome = true ∨
            ∃ y ∈ s.app ++ s.del ++ s.cols, y.dev = r.dev ∧ y.uri = r.uri) := by
          intro hh
          exact Bool.noConfusion (hx'.2 hh)
        refine ⟨_, rfl, ?_, ?_, ?_⟩
        · intro y hy
          simp only [List.mem_append, List.mem_singleton] at hy
          rcases hy with (hy | hy) | (hy | rfl)
          · exact h.proper y (by simp [hy])
          · exact h.proper y (by simp [hy])
          · exact h.proper y (by simp [hy])
          · exact ho
        · show Uniq (s.app ++ (s.cols ++ [r]))
          rw [← List.append_assoc]
          have := pairwise_insert (P := fun a b => ¬ (a.dev = b.dev ∧ a.uri = b.uri)) hsym (s.app ++ s.cols) [] r
            (by rw [List.append_nil]; exact h.uniq)
            (by
              intro y hy hyy
              rw [List.append_nil] at hy
              apply hn
              right
              refine ⟨y, ?_, hyy⟩
              rcases List.mem_append.1 hy with hy | hy <;> simp [hy])
          rw [List.append_nil] at this
          exact this
        · intro y hy
          simp only [List.mem_append, List.mem_singleton] at hy
          rcases hy with hy | (hy | rfl)
          · exact h.core y (by simp [hy])
          · exact h.core y (by simp [hy])
          · cases hf : c.find y.uri y.dev with
            | none => rfl
            | some z => exact absurd (Or.inl (by rw [hf]; rfl)) hn
  | later r =>
    refine ⟨_, rfl, ?_⟩
    refine inv_shrink h _ _ _ List.filter_sublist ?_ (List.Sublist.refl _)
    intro x hx
    split at hx
    · exact h.proper x (by simp [hx])
    · rcases List.mem_append.1 hx with hx | hx
      · exact h.proper x (by simp [hx])
      · rw [List.mem_singleton] at hx
        subst hx
        exact ho
  | delete i =>
    refine ⟨_, rfl, ?_⟩
    exact inv_shrink h _ _ _ List.filter_sublist
      (fun x hx => h.proper x (by simp [(List.mem_filter.1 hx).1])) (List.Sublist.refl _)
  | deleteCol i =>
    refine ⟨_, rfl, ?_⟩
    exact inv_shrink h s.app s.del _ (List.Sublist.refl _)
      (fun x hx => h.proper x (by simp [hx])) List.filter_sublist

theorem run_inv (c : Core) (l : List Op) : ∀ (s : Reg), Inv c s → (∀ o ∈ l, o.Proper) →
    ∃ t, run c s l = .ok t ∧ Inv c t := by
  induction l with
  | nil => intro s h _; exact ⟨s, rfl, h⟩
  | cons o l ih =>
    intro s h ho
    obtain ⟨t, ht, hi⟩ := exec_inv c s h o (ho o (by simp))
    obtain ⟨u, hu, hi'⟩ := ih t hi fun x hx => ho x (by simp [hx])
    exact ⟨u, by unfold run; rw [ht]; exact hu, hi'⟩

end Verif.Ri
