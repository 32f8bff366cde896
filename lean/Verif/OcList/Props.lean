import Verif.OcList.Lemmas
/-! Property theorems for `util/oc_list.c` (C07). -/
namespace Verif.OcList
open Spec

/-- One interface call on the model. -/
def exec (s : St) (fuel : Nat) : Op → Out (St × Option Nat)
  | .add i => do let s ← s.add fuel i; return (s, none)
  | .push i => .ok (s.push i, none)
  | .insert p i => .ok (s.insert p i, none)
  | .pop => .ok s.pop
  | .chop => s.chop fuel
  | .remove i => s.remove fuel i

/-- A sequence of calls with the results returned. -/
def run (s : St) (fuel : Nat) : List Op → Out (St × List (Option Nat))
  | [] => .ok (s, [])
  | o :: r => do
    let (s, x) ← exec s fuel o
    let (s, xs) ← run s fuel r
    return (s, x :: xs)

/-- The results the specification prescribes for a history. -/
def results (l : List Nat) : List Op → List (Option Nat)
  | [] => []
  | o :: r => result l o :: results (step l o) r

/-- C07: each call acts on the represented sequence as specified, returns the
specified item, and terminates without touching memory outside the list. -/
theorem exec_refines (s : St) (l : List Nat) (o : Op) (fuel : Nat) (h : Rep s l)
    (hv : Valid l o) (hf : l.length < fuel) :
    ∃ s', exec s fuel o = .ok (s', result l o) ∧ Rep s' (step l o) := by
  obtain ⟨hc, hnd⟩ := h
  cases o with
  | add i =>
    simp only [Valid] at hv
    simp only [exec, St.add, step, result]
    have hc' : Chain (s.setNext i none).next (s.setNext i none).head l := by
      refine chain_congr l _ ?_ hc
      intro x hx
      have : x ≠ i := fun e => hv (e ▸ hx)
      simp [St.setNext, this]
    have hnd2 : (l ++ [i]).Nodup := by
      rw [List.nodup_append]
      refine ⟨hnd, by simp, ?_⟩
      intro a ha b hb e
      simp only [List.mem_singleton] at hb
      exact hv (hb ▸ e ▸ ha)
    cases l with
    | nil =>
      have hh : s.head = none := (chain_nil_iff _ _).mp hc
      refine ⟨{ s.setNext i none with head := some i }, ?_, ?_, hnd2⟩
      · simp [St.tail, St.setNext, hh]
      · rw [List.nil_append, chain_cons_iff, chain_nil_iff]
        simp [St.setNext]
    | cons a r =>
      have hh : s.head = some a := ((chain_cons_iff _ _ _ _).mp hc).1
      have hc2 := hc'
      simp only [St.setNext, hh] at hc2
      have ht := tailLoop_eq r a fuel hc2 (by simp at hf; omega)
      refine ⟨(s.setNext i none).setNext ((a :: r).getLast (by simp)) (some i), ?_, ?_, hnd2⟩
      · simp [St.tail, St.setNext, hh, ht]
      · exact chain_append i (a :: r) _ (by simp) hc' hnd hv (by simp [St.setNext])
  | push i =>
    simp only [Valid] at hv
    refine ⟨s.push i, rfl, ?_, ?_⟩
    · simp only [step]
      rw [chain_cons_iff]
      refine ⟨rfl, ?_⟩
      simp only [St.push, St.setNext, ↓reduceIte]
      refine chain_congr l _ ?_ hc
      intro x hx
      have : x ≠ i := fun e => hv (e ▸ hx)
      simp [this]
    · exact List.nodup_cons.mpr ⟨hv, hnd⟩
  | insert p i =>
    cases p with
    | none =>
      simp only [Valid] at hv
      refine ⟨s.push i, rfl, ?_, ?_⟩
      · simp only [step]
        rw [chain_cons_iff]
        refine ⟨rfl, ?_⟩
        simp only [St.push, St.setNext, ↓reduceIte]
        refine chain_congr l _ ?_ hc
        intro x hx
        have : x ≠ i := fun e => hv (e ▸ hx)
        simp [this]
      · exact List.nodup_cons.mpr ⟨hv, hnd⟩
    | some p =>
      simp only [Valid] at hv
      refine ⟨s.insert (some p) i, rfl, ?_, ?_⟩
      · have := chain_insert p i l s.head hc hnd hv.1 hv.2
        simpa [St.insert, St.setNext, step] using this
      · simp only [step]
        rw [(insertAfter_perm p i l hv.2).nodup_iff]
        exact List.nodup_cons.mpr ⟨hv.1, hnd⟩
  | pop =>
    cases l with
    | nil =>
      have hh : s.head = none := (chain_nil_iff _ _).mp hc
      exact ⟨s, by simp [exec, St.pop, hh, result], hc, hnd⟩
    | cons a r =>
      obtain ⟨hh, hr⟩ := (chain_cons_iff _ _ _ _).mp hc
      have hnd' := List.nodup_cons.mp hnd
      refine ⟨{ s.setNext a none with head := s.next a }, by simp [exec, St.pop, hh, result], ?_, hnd'.2⟩
      simp only [step, List.tail_cons]
      refine chain_congr r _ ?_ hr
      intro x hx
      have : x ≠ a := fun e => hnd'.1 (e ▸ hx)
      simp [St.setNext, this]
  | chop =>
    match l, hc, hnd, hf with
    | [], hc, hnd, _ =>
      have hh : s.head = none := (chain_nil_iff _ _).mp hc
      exact ⟨s, by simp [exec, St.chop, hh, result], hc, hnd⟩
    | [a], hc, hnd, _ =>
      obtain ⟨hh, hr⟩ := (chain_cons_iff _ _ _ _).mp hc
      have hn := (chain_nil_iff _ _).mp hr
      refine ⟨{ s with head := none }, by simp [exec, St.chop, hh, hn, result], ?_, by simp [step]⟩
      simp [step, Chain]
    | a :: b :: r, hc, hnd, hf =>
      obtain ⟨hh, hr⟩ := (chain_cons_iff _ _ _ _).mp hc
      obtain ⟨hn, hr2⟩ := (chain_cons_iff _ _ _ _).mp hr
      rw [hh] at hc
      obtain ⟨q, h1, h2, h3, h4⟩ := chopLoop_eq r a b fuel hc hnd (by simp at hf; omega)
      refine ⟨s.setNext q none, ?_, ?_, ?_⟩
      · simp [exec, St.chop, hh, hn, h1, h2, result]
      · simpa [St.setNext, step, hh] using h3
      · exact hnd.sublist (List.dropLast_sublist _)
  | remove i =>
    cases l with
    | nil =>
      have hh : s.head = none := (chain_nil_iff _ _).mp hc
      cases fuel with
      | zero => omega
      | succ f => exact ⟨s, by simp [exec, St.remove, removeLoop, hh, result], hc, by simp [step]⟩
    | cons a r =>
      obtain ⟨hh, hr⟩ := (chain_cons_iff _ _ _ _).mp hc
      have hnd' := List.nodup_cons.mp hnd
      cases fuel with
      | zero => omega
      | succ f =>
        by_cases ha : a = i
        · subst ha
          have hfl : (a :: r).filter (· ≠ a) = r := by
            simp only [ne_eq, List.filter_cons, not_true, decide_false, Bool.false_eq_true, ↓reduceIte]
            exact filter_notMem a r hnd'.1
          refine ⟨({ s with head := s.next a } : St).setNext a none, ?_, ?_, ?_⟩
          · simp [exec, St.remove, removeLoop, hh, result]
          · simp only [step, hfl]
            refine chain_congr r _ ?_ hr
            intro x hx
            have : x ≠ a := fun e => hnd'.1 (e ▸ hx)
            simp [St.setNext, this]
          · simp only [step, hfl]; exact hnd'.2
        · rw [hh] at hc
          obtain ⟨s', h1, h2, h3, h4⟩ := removeLoop_some r s a i f hc hnd ha (by simp at hf; omega)
          have hia : i ≠ a := fun e => ha e.symm
          refine ⟨s', ?_, ?_, ?_⟩
          · simp [exec, St.remove, removeLoop, hh, ha, h1, result, hia]
          · rw [h2, hh]
            simpa [step, ha] using h3
          · exact hnd.sublist List.filter_sublist

/-- C07: under any valid history the list holds exactly the abstract sequence,
returns the prescribed items, and stays an acyclic chain of distinct items. -/
theorem run_refines : ∀ (ops : List Op) (s : St) (l : List Nat) (fuel : Nat), Rep s l →
    ValidAll l ops → l.length + ops.length < fuel →
    ∃ s', run s fuel ops = .ok (s', results l ops) ∧ Rep s' (ops.foldl step l)
  | [], s, l, fuel, h, _, _ => ⟨s, rfl, h⟩
  | o :: r, s, l, fuel, h, hv, hf => by
      obtain ⟨s1, h1, h2⟩ := exec_refines s l o fuel h hv.1 (by simp at hf; omega)
      have hlen : (step l o).length ≤ l.length + 1 := by
        have : ∀ p i, (insertAfter p i l).length ≤ l.length + 1 := by
          intro p i
          clear h hv hf h1 h2
          induction l with
          | nil => simp [insertAfter]
          | cons a l ih => simp only [insertAfter]; split <;> simp <;> omega
        cases o with
        | insert p i => cases p <;> simp [step, this]
        | remove i => simp only [step]; exact Nat.le_succ_of_le (List.length_filter_le _ _)
        | _ => simp [step] <;> omega
      obtain ⟨s2, h3, h4⟩ := run_refines r s1 (step l o) fuel h2 hv.2 (by simp at hf; omega)
      exact ⟨s2, by simp [run, h1, h3, results], h4⟩

/-- C07: from an initialised list (whatever its memory contained before). -/
theorem run_init (ops : List Op) (s : St) (fuel : Nat) (hv : ValidAll [] ops)
    (hf : ops.length < fuel) :
    ∃ s', run s.init fuel ops = .ok (s', results [] ops) ∧ Rep s' (ops.foldl step []) :=
  run_refines ops s.init [] fuel ⟨by simp [St.init, Chain], by simp⟩ hv (by simpa using hf)

example : ∃ s', run (St.init ⟨some 7, fun _ => some 7⟩) 100
      [.add 1, .add 2, .push 3, .insert (some 1) 4, .chop, .remove 1, .pop] =
      .ok (s', [none, none, none, none, some 2, some 1, some 3]) ∧ Rep s' [4] :=
  run_init _ _ _ (by simp [ValidAll, Valid, step]) (by decide)

/-- C07: queries agree with the sequence. -/
theorem queries (s : St) (l : List Nat) (h : Rep s l) (fuel : Nat) (hf : l.length < fuel) :
    s.length fuel = .ok l.length ∧ s.tail fuel = .ok l.getLast? ∧ s.head = l.head? ∧
    ∀ i, s.has fuel i = .ok (decide (i ∈ l)) := by
  obtain ⟨hc, hnd⟩ := h
  refine ⟨?_, ?_, ?_, fun i => hasLoop_eq i l _ fuel hc hf⟩
  · simpa [St.length] using lengthLoop_eq l _ fuel 0 hc hf
  · cases l with
    | nil => simp [St.tail, (chain_nil_iff _ _).mp hc]
    | cons a r =>
      have hh := ((chain_cons_iff _ _ _ _).mp hc).1
      rw [hh] at hc
      simp [St.tail, hh, tailLoop_eq r a fuel hc (by simp at hf; omega)]; rfl
  · cases l with
    | nil => simpa [chain_nil_iff] using hc
    | cons a r => simpa using ((chain_cons_iff _ _ _ _).mp hc).1

example : Rep ⟨some 1, fun j => if j = 1 then some 2 else none⟩ [1, 2] := by
  refine ⟨?_, by decide⟩
  simp [chain_cons_iff, chain_nil_iff]

/-- The precondition is needed: adding an item that already is the last one makes
the chain cyclic, so that the next traversal does not terminate (any fuel). -/
theorem add_member_cycles :
    ∃ s s' : St, Rep s [1, 2] ∧ s.add 3 2 = .ok s' ∧ ∀ fuel, s'.tail fuel = .ub := by
  refine ⟨⟨some 1, fun j => if j = 1 then some 2 else none⟩, _, ⟨?_, by decide⟩, rfl, ?_⟩
  · simp [chain_cons_iff, chain_nil_iff]
  · intro fuel
    have key : ∀ f a, a = 1 ∨ a = 2 → tailLoop (fun j => if j = 2 then some 2 else if j = 2 then none else if j = 1 then some 2 else none) f a = .ub := by
      intro f
      induction f with
      | zero => intro a _; rfl
      | succ f ih =>
        intro a ha
        rcases ha with rfl | rfl
        · simp only [tailLoop]; exact ih 2 (.inr rfl)
        · simp only [tailLoop]; exact ih 2 (.inr rfl)
    have := key fuel 1 (.inl rfl)
    simp only [St.tail, St.setNext]
    simp_all

end Verif.OcList
