import Verif.OcList.Model
import Verif.OcList.Spec
/-! Helper lemmas for `util/oc_list.c`. -/
namespace Verif.OcList
open Spec

/-- The chain from a pointer holds exactly the items of a list, in order. -/
def Chain (next : Nat → Option Nat) : Option Nat → List Nat → Prop
  | p, [] => p = none
  | p, a :: r => p = some a ∧ Chain next (next a) r

/-- The list of `s` is the sequence `l` of distinct items. -/
def Rep (s : St) (l : List Nat) : Prop := Chain s.next s.head l ∧ l.Nodup

theorem chain_nil_iff (next) (p : Option Nat) : Chain next p [] ↔ p = none := Iff.rfl

theorem chain_cons_iff (next) (p : Option Nat) (a : Nat) (r : List Nat) :
    Chain next p (a :: r) ↔ p = some a ∧ Chain next (next a) r := Iff.rfl

theorem chain_congr {next next' : Nat → Option Nat} : ∀ (l : List Nat) (p : Option Nat),
    (∀ x ∈ l, next' x = next x) → Chain next p l → Chain next' p l
  | [], p, _, h => by rw [chain_nil_iff] at *; exact h
  | a :: r, p, hx, h => by
      rw [chain_cons_iff] at *
      refine ⟨h.1, ?_⟩
      rw [hx a (by simp)]
      exact chain_congr r _ (fun x hx' => hx x (by simp [hx'])) h.2

theorem tailLoop_eq {next : Nat → Option Nat} : ∀ (r : List Nat) (a f : Nat),
    Chain next (some a) (a :: r) → r.length < f →
    tailLoop next f a = .ok ((a :: r).getLast (by simp))
  | [], a, 0, _, hf => by simp at hf
  | [], a, f + 1, h, _ => by
      rw [chain_cons_iff, chain_nil_iff] at h
      simp [tailLoop, h.2]
  | b :: r, a, 0, _, hf => by simp at hf
  | b :: r, a, f + 1, h, hf => by
      rw [chain_cons_iff] at h
      have hb := ((chain_cons_iff _ _ _ _).mp h.2)
      simp only [tailLoop, hb.1]
      have h2 := h.2
      rw [hb.1] at h2
      rw [tailLoop_eq r b f h2 (by simp at hf; omega)]
      simp

theorem lengthLoop_eq {next : Nat → Option Nat} : ∀ (l : List Nat) (p : Option Nat) (f n : Nat),
    Chain next p l → l.length < f → lengthLoop next f p n = .ok (n + l.length)
  | _, _, 0, _, _, hf => by omega
  | [], p, f + 1, n, h, _ => by
      rw [chain_nil_iff] at h; subst h; simp [lengthLoop]
  | a :: r, p, f + 1, n, h, hf => by
      rw [chain_cons_iff] at h
      obtain ⟨rfl, h⟩ := h
      simp only [lengthLoop]
      rw [lengthLoop_eq r _ f _ h (by simp at hf; omega)]
      simp; omega

theorem hasLoop_eq {next : Nat → Option Nat} (item : Nat) : ∀ (l : List Nat) (p : Option Nat) (f : Nat),
    Chain next p l → l.length < f → hasLoop next item f p = .ok (decide (item ∈ l))
  | _, _, 0, _, hf => by omega
  | [], p, f + 1, h, _ => by
      rw [chain_nil_iff] at h; subst h; simp [hasLoop]
  | a :: r, p, f + 1, h, hf => by
      rw [chain_cons_iff] at h
      obtain ⟨rfl, h⟩ := h
      simp only [hasLoop]
      split
      · next e => simp [e]
      · next e =>
        rw [hasLoop_eq item r _ f h (by simp at hf; omega)]
        have : item ≠ a := fun h => e h.symm
        simp [this]

/-- Changing the last `next` field appends. -/
theorem chain_append {next : Nat → Option Nat} (item : Nat) : ∀ (l : List Nat) (p : Option Nat)
    (hne : l ≠ []), Chain next p l → l.Nodup → item ∉ l → next item = none →
    Chain (fun j => if j = l.getLast hne then some item else next j) p (l ++ [item])
  | [a], p, _, h, _, hi, hn => by
      rw [chain_cons_iff] at h
      simp only [List.cons_append, List.nil_append, List.getLast_singleton]
      rw [chain_cons_iff]
      refine ⟨h.1, ?_⟩
      simp only [↓reduceIte]
      rw [chain_cons_iff, chain_nil_iff]
      have : item ≠ a := by intro h; simp [h] at hi
      simp [this, hn]
  | a :: b :: r, p, _, h, hnd, hi, hn => by
      rw [chain_cons_iff] at h
      have hnd' := List.nodup_cons.mp hnd
      have := chain_append item (b :: r) (next a) (by simp) h.2 hnd'.2
        (fun h => hi (List.mem_cons_of_mem _ h)) hn
      rw [List.cons_append, chain_cons_iff]
      refine ⟨h.1, ?_⟩
      have hne : a ≠ (b :: r).getLast (by simp) := by
        intro he
        apply hnd'.1
        rw [he]
        exact List.getLast_mem _
      simp only [List.getLast_cons_cons, hne, ↓reduceIte]
      exact this

/-- Inserting behind a member. -/
theorem chain_insert {next : Nat → Option Nat} (pv item : Nat) : ∀ (l : List Nat) (p : Option Nat),
    Chain next p l → l.Nodup → item ∉ l → pv ∈ l →
    Chain (fun j => if j = pv then some item else if j = item then next pv else next j) p
      (insertAfter pv item l)
  | [], p, _, _, _, hp => by simp at hp
  | a :: r, p, h, hnd, hi, hp => by
      rw [chain_cons_iff] at h
      have hnd' := List.nodup_cons.mp hnd
      simp only [insertAfter]
      split
      · next e =>
        subst e
        rw [chain_cons_iff, chain_cons_iff]
        have : item ≠ a := by intro h; simp [h] at hi
        refine ⟨h.1, by simp, ?_⟩
        simp only [this, ↓reduceIte]
        refine chain_congr r _ ?_ h.2
        intro x hx
        have h1 : x ≠ a := fun h => hnd'.1 (h ▸ hx)
        have h2 : x ≠ item := fun h => hi (List.mem_cons_of_mem _ (h ▸ hx))
        simp [h1, h2]
      · next e =>
        rw [chain_cons_iff]
        refine ⟨h.1, ?_⟩
        have hp' : pv ∈ r := by
          rcases List.mem_cons.mp hp with h | h
          · exact absurd h.symm e
          · exact h
        have := chain_insert pv item r (next a) h.2 hnd'.2
          (fun h => hi (List.mem_cons_of_mem _ h)) hp'
        have h1 : a ≠ item := fun h => hi (h ▸ List.mem_cons_self)
        simp only [e, h1, ↓reduceIte]
        exact this

theorem insertAfter_perm (pv item : Nat) : ∀ l : List Nat, pv ∈ l →
    (insertAfter pv item l).Perm (item :: l)
  | [], hp => by simp at hp
  | a :: r, hp => by
      simp only [insertAfter]
      split
      · exact List.Perm.swap _ _ _
      · next e =>
        have hp' : pv ∈ r := by
          rcases List.mem_cons.mp hp with h | h
          · exact absurd h.symm e
          · exact h
        exact ((insertAfter_perm pv item r hp').cons a).trans (List.Perm.swap _ _ _)

/-- The loop of chop finds the last item but one. -/
theorem chopLoop_eq {next : Nat → Option Nat} : ∀ (r : List Nat) (a b f : Nat),
    Chain next (some a) (a :: b :: r) → (a :: b :: r).Nodup → r.length < f →
    ∃ l, chopLoop next f a = .ok l ∧ next l = (b :: r).getLast? ∧
      Chain (fun j => if j = l then none else next j) (some a) ((a :: b :: r).dropLast) ∧
      l ∈ (a :: b :: r).dropLast
  | r, a, b, 0, _, _, hf => by omega
  | [], a, b, f + 1, h, hnd, _ => by
      have h1 := ((chain_cons_iff _ _ _ _).mp h).2
      have h2 := (chain_cons_iff _ _ _ _).mp h1
      have h3 := (chain_nil_iff _ _).mp h2.2
      refine ⟨a, by simp [chopLoop, h2.1, h3], by simp [h2.1], ?_, by simp⟩
      simp only [List.dropLast_cons_cons, List.dropLast_singleton]
      rw [chain_cons_iff, chain_nil_iff]
      simp
  | c :: r, a, b, f + 1, h, hnd, hf => by
      have h1 := ((chain_cons_iff _ _ _ _).mp h).2
      have h2 := (chain_cons_iff _ _ _ _).mp h1
      have h3 := (chain_cons_iff _ _ _ _).mp h2.2
      rw [h2.1] at h1
      have hnd' := List.nodup_cons.mp hnd
      obtain ⟨l, h4, h5, h6, h7⟩ := chopLoop_eq r b c f h1 hnd'.2 (by simp at hf; omega)
      refine ⟨l, by simp [chopLoop, h2.1, h3.1, h4], by rw [h5]; simp, ?_, ?_⟩
      · rw [List.dropLast_cons_cons, chain_cons_iff]
        refine ⟨rfl, ?_⟩
        have : a ≠ l := fun e => hnd'.1 (e ▸ List.dropLast_subset _ h7)
        simp only [this, ↓reduceIte, h2.1]
        exact h6
      · rw [List.dropLast_cons_cons]
        exact List.mem_cons_of_mem _ h7

theorem filter_notMem (item : Nat) (l : List Nat) (h : item ∉ l) :
    l.filter (· ≠ item) = l := by
  rw [List.filter_eq_self]
  intro a ha
  simp only [ne_eq, decide_not, Bool.not_eq_eq_eq_not, Bool.not_true, decide_eq_false_iff_not]
  exact fun e => h (e ▸ ha)

/-- Removal from behind item `p`. -/
theorem removeLoop_some : ∀ (r : List Nat) (s : St) (p item f : Nat),
    Chain s.next (some p) (p :: r) → (p :: r).Nodup → p ≠ item → r.length < f →
    ∃ s', removeLoop f s (some p) item = .ok (s', if item ∈ r then some item else none) ∧
      s'.head = s.head ∧ Chain s'.next (some p) (p :: r.filter (· ≠ item)) ∧
      (∀ x, x ∉ p :: r → s'.next x = s.next x)
  | r, s, p, item, 0, _, _, _, hf => by omega
  | [], s, p, item, f + 1, h, _, _, _ => by
      have h1 := ((chain_cons_iff _ _ _ _).mp h).2
      have h2 := (chain_nil_iff _ _).mp h1
      exact ⟨s, by simp [removeLoop, h2], rfl, by simpa using h, fun _ _ => rfl⟩
  | c :: r, s, p, item, f + 1, h, hnd, hp, hf => by
      have h1 := ((chain_cons_iff _ _ _ _).mp h).2
      have h2 := (chain_cons_iff _ _ _ _).mp h1
      have hnd' := List.nodup_cons.mp hnd
      have hnd2 := List.nodup_cons.mp hnd'.2
      have hpc : p ≠ c := fun e => hnd'.1 (e ▸ List.mem_cons_self)
      by_cases hc : c = item
      · subst hc
        refine ⟨(s.setNext p (s.next c)).setNext c none, by simp [removeLoop, h2.1], rfl, ?_, ?_⟩
        · have hf' : (c :: r).filter (· ≠ c) = r := by
            simp only [ne_eq, List.filter_cons, not_true, decide_false, Bool.false_eq_true, ↓reduceIte]
            exact filter_notMem c r hnd2.1
          rw [hf', chain_cons_iff]
          refine ⟨rfl, ?_⟩
          simp only [St.setNext, hpc, ↓reduceIte]
          refine chain_congr r _ ?_ h2.2
          intro x hx
          have e1 : x ≠ c := fun e => hnd2.1 (e ▸ hx)
          have e2 : x ≠ p := fun e => hnd'.1 (e ▸ List.mem_cons_of_mem _ hx)
          simp [e1, e2]
        · intro x hx
          have e1 : x ≠ c := fun e => hx (by simp [e])
          have e2 : x ≠ p := fun e => hx (by simp [e])
          simp [St.setNext, e1, e2]
      · rw [h2.1] at h1
        obtain ⟨s', h3, h4, h5, h6⟩ := removeLoop_some r s c item f h1 hnd'.2 hc (by simp at hf; omega)
        refine ⟨s', ?_, h4, ?_, ?_⟩
        · have : (item ∈ c :: r) ↔ item ∈ r := by
            have : item ≠ c := fun e => hc e.symm
            simp [this]
          simp [removeLoop, h2.1, hc, h3, this]
        · have : (c :: r).filter (· ≠ item) = c :: r.filter (· ≠ item) := by
            simp [hc]
          rw [this, chain_cons_iff]
          refine ⟨rfl, ?_⟩
          rw [h6 p hnd'.1, h2.1]
          exact h5
        · intro x hx
          exact h6 x (fun e => hx (List.mem_cons_of_mem _ e))

end Verif.OcList
