import Verif.Mmem.Lemmas
/-! Property theorems for `util/oc_mmem.c` (C09). -/
namespace Verif.Mmem
open Spec

/-- One call on the model. -/
def exec {α : Type} (N : Nat) (s : St α) : Op α → Out (St α × Bool)
  | .alloc id size => .ok (alloc N s id size)
  | .free id => do let s ← free N s id; return (s, true)
  | .store id off xs => do let s ← store s id off xs; return (s, true)

/-- C09: each call, with the obligations met, is free of undefined behaviour,
keeps the invariant and has exactly the specified effect on the contents of the
blocks and on the free space. -/
theorem exec_refines {α : Type} (N : Nat) (s : St α) (h : Inv N s) (o : Op α)
    (hv : Valid (live s) o) :
    ∃ s' r, exec N s o = .ok (s', r) ∧ Inv N s' ∧
      Step (live s, available s) o r (live s', available s') := by
  obtain ⟨hmem, hav, hlay, hnd⟩ := h
  cases o with
  | alloc id size =>
    simp only [exec, alloc]
    by_cases hlt : s.avail < size
    · exact ⟨s, false, by simp [hlt], ⟨hmem, hav, hlay, hnd⟩, .allocFail _ _ _ _ hlt⟩
    · simp only [hlt, ↓reduceIte]
      have hno : fromHandle id s.blocks = none := by
        have hv' : live s id = none := hv
        simpa [live] using hv'
      refine ⟨_, true, rfl, ⟨hmem, by simp only; omega, ?_, ?_⟩, ?_⟩
      · have := lay_append s.blocks 0 _ ⟨id, N - s.avail, size⟩ hlay rfl
        have e : N - s.avail + size = N - (s.avail - size) := by omega
        rw [← e]; exact this
      · simp only [List.map_append, List.map_cons, List.map_nil]
        rw [List.nodup_append]
        refine ⟨hnd, by simp, ?_⟩
        intro a ha b hb e
        rw [List.mem_singleton] at hb
        subst hb; subst e
        exact (fromHandle_none _ _).mp hno ha
      · have : live ({ s with avail := s.avail - size, blocks := s.blocks ++ [⟨id, N - s.avail, size⟩] } : St α)
            = fun j => if j = id then some (slice s.mem (N - s.avail) size) else live s j := by
          funext j
          rw [live_fst, live_fst, fromHandle_append]
          by_cases hj : j = id
          · subst hj; simp [hno]
          · have hj' : id ≠ j := fun e => hj e.symm
            simp only [hj, hj', ↓reduceIte]
            cases fromHandle j s.blocks <;> simp
        rw [this]
        exact .allocOk _ _ _ _ _ (by simp only [available]; omega) (length_slice _ _ _ (by omega))
  | free id =>
    have hv' : live s id ≠ none := hv
    cases hf : fromHandle id s.blocks with
    | none => simp [live, hf] at hv'
    | some p =>
      obtain ⟨m, r⟩ := p
      obtain ⟨pre, hsplit, hpre⟩ := fromHandle_split id s.blocks m r hf
      have hmid : m.id = id := (fromHandle_mem id s.blocks _ hf).2
      have hl2 := (lay_split pre 0 _ m r).mp (hsplit ▸ hlay)
      have hsh : shiftAfter m s.blocks = pre ++ r.map fun n => { n with ptr := n.ptr - m.size } := by
        rw [hsplit]; exact shiftAfter_split m pre r (by rw [hmid]; exact hpre)
      have hb2 := lay_bound _ _ _ hl2.2
      have hcl : live s id = some (slice s.mem m.ptr m.size) := by simp [live, hf]
      have hclen : (slice s.mem m.ptr m.size).length = m.size := length_slice _ _ _ (by omega)
      have hnd2 : ((shiftAfter m s.blocks).map (·.id)).Nodup := by
        rw [hsh]
        rw [hsplit] at hnd
        refine hnd.sublist ?_
        simp only [List.map_append, List.map_map, List.map_cons]
        refine List.Sublist.append (List.Sublist.refl _) ?_
        exact List.Sublist.cons _ (by rw [show ((fun x : Blk => x.id) ∘ fun n : Blk => { n with ptr := n.ptr - m.size }) = (fun x : Blk => x.id) from rfl]; exact List.Sublist.refl _)
      have hlay2 : Lay 0 (shiftAfter m s.blocks) (N - (s.avail + m.size)) := by
        rw [hsh]
        refine lay_app pre 0 m.ptr _ _ hl2.1 ?_
        have := lay_shift m.size r m.ptr _ hl2.2
        have e : N - s.avail - m.size = N - (s.avail + m.size) := by omega
        rw [← e]; exact this
      -- the new state in both branches
      have hexec : ∃ mem', exec N s (.free id) = .ok (⟨mem', s.avail + m.size, shiftAfter m s.blocks⟩, true) ∧
          mem'.length = N ∧
          (∀ b ∈ pre, slice mem' b.ptr b.size = slice s.mem b.ptr b.size) ∧
          (∀ b ∈ r, slice mem' (b.ptr - m.size) b.size = slice s.mem b.ptr b.size) := by
        cases r with
        | nil => exact ⟨s.mem, by simp [exec, free, hf], hmem, fun _ _ => rfl, by simp⟩
        | cons n t =>
          have hn : n.ptr = m.ptr + m.size := hl2.2.1
          have hbn := lay_bound _ _ _ hl2.2.2
          have h1 : n.ptr + (N - s.avail - n.ptr) ≤ s.mem.length := by omega
          have hsl := length_slice s.mem n.ptr (N - s.avail - n.ptr) h1
          have h2 : m.ptr + (slice s.mem n.ptr (N - s.avail - n.ptr)).length ≤ s.mem.length := by omega
          refine ⟨writeAt s.mem m.ptr (slice s.mem n.ptr (N - s.avail - n.ptr)), ?_, ?_, ?_, ?_⟩
          · simp only [exec, free, hf, sliceChk, h1, ↓reduceIte, Out.ok_bind, writeChk, h2, Out.pure_eq]
          · rw [length_writeAt _ _ _ h2, hmem]
          · intro b hb
            have := lay_mem _ _ _ hl2.1 b hb
            exact slice_writeAt_disj _ _ _ _ _ h2 (by omega)
          · intro b hb
            have := lay_mem _ _ _ hl2.2 b hb
            have e : m.size = n.ptr - m.ptr := by omega
            rw [e]
            exact slice_moved _ _ _ _ _ _ (by omega) h1 (by omega) (by omega)
      obtain ⟨mem', he, hlen, hp1, hp2⟩ := hexec
      refine ⟨_, true, he, ⟨hlen, by simp only; omega, hlay2, hnd2⟩, ?_⟩
      have : live (⟨mem', s.avail + m.size, shiftAfter m s.blocks⟩ : St α)
          = fun j => if j = id then none else live s j := by
        funext j
        rw [live_fst, live_fst]
        rw [show (⟨mem', s.avail + m.size, shiftAfter m s.blocks⟩ : St α).blocks = _ from hsh, hsplit]
        simp only [fromHandle_fst_append, fromHandle_fst_map]
        rw [hsplit] at hnd
        simp only [List.map_append, List.map_cons, List.nodup_append, List.nodup_cons] at hnd
        by_cases hj : j = id
        · subst hj
          have hn1 : fromHandle j pre = none := by
            rw [fromHandle_none]; intro hm
            obtain ⟨b, hb, hbe⟩ := List.mem_map.mp hm
            exact hpre b hb hbe
          have hn2 : fromHandle j r = none := by
            rw [fromHandle_none, ← hmid]; exact hnd.2.1.1
          simp [hn1, hn2]
        · simp only [hj, ↓reduceIte]
          cases hfp : fromHandle j pre with
          | some p =>
            simp [hp1 p.1 (fromHandle_mem _ _ _ hfp).1]
          | none =>
            have : m.id ≠ j := by rw [hmid]; exact fun e => hj e.symm
            simp only [fromHandle, this, ↓reduceIte]
            cases hfr : fromHandle j r with
            | none => simp
            | some p => simp [hp2 p.1 (fromHandle_mem _ _ _ hfr).1]
      rw [this]
      have hst := Step.free (live s) (available s) id _ hcl
      rw [hclen] at hst
      exact hst
  | store id off xs =>
    obtain ⟨c, hc, hfit⟩ := hv
    cases hf : fromHandle id s.blocks with
    | none => simp [live, hf] at hc
    | some p =>
      obtain ⟨m, r⟩ := p
      obtain ⟨pre, hsplit, hpre⟩ := fromHandle_split id s.blocks m r hf
      have hmid : m.id = id := (fromHandle_mem id s.blocks _ hf).2
      have hl2 := (lay_split pre 0 _ m r).mp (hsplit ▸ hlay)
      have hb2 := lay_bound _ _ _ hl2.2
      have hcl : live s id = some (slice s.mem m.ptr m.size) := by simp [live, hf]
      have hclen : (slice s.mem m.ptr m.size).length = m.size := length_slice _ _ _ (by omega)
      have hce : c = slice s.mem m.ptr m.size := by
        rw [hcl] at hc; exact (Option.some.inj hc).symm
      have hfit' : off + xs.length ≤ m.size := by rw [hce, hclen] at hfit; exact hfit
      have hw : m.ptr + off + xs.length ≤ s.mem.length := by omega
      refine ⟨{ s with mem := writeAt s.mem (m.ptr + off) xs }, true, ?_, ?_, ?_⟩
      · simp only [exec, store, hf, writeChk, hw, ↓reduceIte, Out.ok_bind, Out.pure_eq]
      · exact ⟨by simp only [length_writeAt _ _ _ hw]; exact hmem, hav, hlay, hnd⟩
      · have : live ({ s with mem := writeAt s.mem (m.ptr + off) xs } : St α)
            = fun j => if j = id then some (writeAt c off xs) else live s j := by
          funext j
          rw [live_fst, live_fst]
          by_cases hj : j = id
          · subst hj
            simp only [hf, Option.map_some, ↓reduceIte]
            rw [slice_writeAt_sub _ _ _ _ _ (by omega) (by omega) (by omega)]
            have : m.ptr + off - m.ptr = off := by omega
            rw [this, hce]
          · simp only [hj, ↓reduceIte]
            cases hfj : fromHandle j s.blocks with
            | none => simp
            | some q =>
              simp only [Option.map_some]
              obtain ⟨hq1, hq2⟩ := fromHandle_mem _ _ _ hfj
              rw [hsplit] at hq1
              rw [slice_writeAt_disj _ _ _ _ _ hw]
              rcases List.mem_append.mp hq1 with hq | hq
              · have := lay_mem _ _ _ hl2.1 _ hq; omega
              · rcases List.mem_cons.mp hq with hq | hq
                · rw [hq] at hq2; exact absurd (hq2.symm.trans hmid) hj
                · have := lay_mem _ _ _ hl2.2 _ hq; omega
        rw [this]
        exact .store _ _ _ _ _ _ hc

/-- Histories of the model in which the client meets its obligations. -/
inductive Runs {α : Type} (N : Nat) : St α → List (Op α) → List Bool → St α → Prop
  | nil (s) : Runs N s [] [] s
  | cons {s o r s' os rs s''} : Valid (live s) o → exec N s o = .ok (s', r) →
      Runs N s' os rs s'' → Runs N s (o :: os) (r :: rs) s''

/-- Histories of the specification. -/
inductive Hist {α : Type} : Live α × Nat → List (Op α) → List Bool → Live α × Nat → Prop
  | nil (m) : Hist m [] [] m
  | cons {m o r m' os rs m''} : Valid m.1 o → Step m o r m' → Hist m' os rs m'' →
      Hist m (o :: os) (r :: rs) m''

theorem inv_init {α : Type} (zero : α) (N : Nat) : Inv N (init zero N) :=
  ⟨by simp [init], Nat.le_refl _, by simp [init, Lay], by simp [init]⟩

/-- C09: every history of the pool is a history of the specification, so the
contents of a live block survive all compaction caused by other blocks. -/
theorem runs_refine {α : Type} (N : Nat) : ∀ (s : St α) (os : List (Op α)) (rs : List Bool)
    (s' : St α), Inv N s → Runs N s os rs s' →
    Inv N s' ∧ Hist (live s, available s) os rs (live s', available s') := by
  intro s os rs s' hi hr
  induction hr with
  | nil s => exact ⟨hi, .nil _⟩
  | cons hv he _ ih =>
    obtain ⟨s1, r1, h1, h2, h3⟩ := exec_refines N _ hi _ hv
    rw [he] at h1
    simp only [Out.ok.injEq, Prod.mk.injEq] at h1
    obtain ⟨rfl, rfl⟩ := h1
    obtain ⟨h4, h5⟩ := ih h2
    exact ⟨h4, .cons hv h3 h5⟩

/-- C09: conversely a valid call is always possible (no undefined behaviour), so
histories never get stuck. -/
theorem runs_progress {α : Type} (N : Nat) (s : St α) (h : Inv N s) (o : Op α)
    (hv : Valid (live s) o) : ∃ s' r, exec N s o = .ok (s', r) :=
  let ⟨s', r, h1, _⟩ := exec_refines N s h o hv
  ⟨s', r, h1⟩

/-- C09: distinct live blocks never overlap and lie inside the pool. -/
theorem blocks_disjoint {α : Type} (N : Nat) (s : St α) (h : Inv N s) (a b : Blk)
    (ha : a ∈ s.blocks) (hb : b ∈ s.blocks) (hne : a.id ≠ b.id) :
    a.ptr + a.size ≤ N ∧ (a.ptr + a.size ≤ b.ptr ∨ b.ptr + b.size ≤ a.ptr) := by
  obtain ⟨_, hav, hlay, _⟩ := h
  have h1 := lay_mem _ _ _ hlay a ha
  refine ⟨by omega, ?_⟩
  obtain ⟨pre, post, hsp⟩ := List.append_of_mem ha
  have hl := (lay_split pre 0 _ a post).mp (hsp ▸ hlay)
  rw [hsp] at hb
  rcases List.mem_append.mp hb with hb | hb
  · right; exact (lay_mem _ _ _ hl.1 b hb).2
  · rcases List.mem_cons.mp hb with rfl | hb
    · exact absurd rfl hne
    · left; exact (lay_mem _ _ _ hl.2 b hb).1

example : ∃ s', Runs 4 (init (0 : Nat) 4)
      [.alloc 1 2, .alloc 2 2, .store 2 0 [7, 8], .alloc 3 1, .free 1, .alloc 3 1]
      [true, true, true, false, true, true] s' ∧ live s' 2 = some [7, 8] ∧ s'.avail = 1 := by
  refine ⟨_, .cons rfl rfl (.cons rfl rfl (.cons ⟨_, rfl, by decide⟩ rfl (.cons rfl rfl
    (.cons ?_ rfl (.cons rfl rfl (.nil _)))))), rfl, rfl⟩
  show live _ 1 ≠ none
  decide

/-- Freeing a handle twice is outside the obligations (and undefined). -/
theorem double_free_ub :
    (do let s ← free 4 (alloc 4 (init (0 : Nat) 4) 1 2).1 1; free 4 s 1) = .ub := rfl

end Verif.Mmem
