import Verif.Mmem.Model
import Verif.Mmem.Spec
/-! Helper lemmas for `util/oc_mmem.c`. -/
namespace Verif.Mmem

/-- Blocks follow each other without gaps from `off` to `e`. -/
def Lay : Nat → List Blk → Nat → Prop
  | off, [], e => off = e
  | off, b :: r, e => b.ptr = off ∧ Lay (off + b.size) r e

/-- Invariant of a pool of `N` elements. -/
def Inv {α : Type} (N : Nat) (s : St α) : Prop :=
  s.mem.length = N ∧ s.avail ≤ N ∧ Lay 0 s.blocks (N - s.avail) ∧ (s.blocks.map (·.id)).Nodup

/-- The contents of the blocks. -/
def live {α : Type} (s : St α) (id : Nat) : Option (List α) :=
  (fromHandle id s.blocks).map fun p => slice s.mem p.1.ptr p.1.size

theorem lay_bound : ∀ (l : List Blk) (off e : Nat), Lay off l e → off ≤ e
  | [], off, e, h => by simp [Lay] at h; omega
  | b :: r, off, e, h => by have := lay_bound r _ _ h.2; omega

theorem lay_append : ∀ (l : List Blk) (off e : Nat) (b : Blk), Lay off l e → b.ptr = e →
    Lay off (l ++ [b]) (e + b.size)
  | [], off, e, b, h, hb => by simp [Lay] at h ⊢; omega
  | a :: r, off, e, b, h, hb => ⟨h.1, lay_append r _ _ b h.2 hb⟩

theorem fromHandle_append (id : Nat) (b : Blk) : ∀ (l : List Blk),
    (fromHandle id (l ++ [b])).map (·.1) =
      match fromHandle id l with
      | some p => some p.1
      | none => if b.id = id then some b else none
  | [] => by simp only [List.nil_append, fromHandle]; split <;> simp
  | a :: r => by
      simp only [List.cons_append, fromHandle]
      split
      · simp
      · exact fromHandle_append id b r

theorem fromHandle_mem (id : Nat) : ∀ (l : List Blk) (p : Blk × List Blk),
    fromHandle id l = some p → p.1 ∈ l ∧ p.1.id = id
  | [], p, h => by simp [fromHandle] at h
  | a :: r, p, h => by
      simp only [fromHandle] at h
      split at h
      · next e => cases h; simp [e]
      · have := fromHandle_mem id r p h
        exact ⟨List.mem_cons_of_mem _ this.1, this.2⟩

theorem fromHandle_none (id : Nat) : ∀ (l : List Blk),
    fromHandle id l = none ↔ id ∉ l.map (·.id)
  | [] => by simp [fromHandle]
  | a :: r => by
      simp only [fromHandle, List.map_cons, List.mem_cons]
      split
      · next e => simp [e]
      · next e =>
        rw [fromHandle_none id r]
        constructor
        · rintro h (h1 | h1)
          · exact e h1.symm
          · exact h h1
        · intro h h1; exact h (.inr h1)

theorem lay_mem : ∀ (l : List Blk) (off e : Nat), Lay off l e → ∀ b ∈ l,
    off ≤ b.ptr ∧ b.ptr + b.size ≤ e
  | [], _, _, _, b, hb => by simp at hb
  | a :: r, off, e, h, b, hb => by
      have hbd := lay_bound r _ _ h.2
      rcases List.mem_cons.mp hb with rfl | hb
      · exact ⟨by have := h.1; omega, by have := h.1; omega⟩
      · have := lay_mem r _ _ h.2 b hb; exact ⟨by omega, by omega⟩

/-- Position of a handle: what is before and after it. -/
theorem fromHandle_split (id : Nat) : ∀ (l : List Blk) (m : Blk) (r : List Blk),
    fromHandle id l = some (m, r) → ∃ pre, l = pre ++ m :: r ∧ ∀ b ∈ pre, b.id ≠ id
  | [], m, r, h => by simp [fromHandle] at h
  | a :: t, m, r, h => by
      simp only [fromHandle] at h
      split at h
      · cases h; exact ⟨[], rfl, by simp⟩
      · next e =>
        obtain ⟨pre, h1, h2⟩ := fromHandle_split id t m r h
        refine ⟨a :: pre, by simp [h1], ?_⟩
        intro b hb
        rcases List.mem_cons.mp hb with rfl | hb
        · exact e
        · exact h2 b hb

theorem shiftAfter_split (m : Blk) : ∀ (pre r : List Blk), (∀ b ∈ pre, b.id ≠ m.id) →
    shiftAfter m (pre ++ m :: r) = pre ++ r.map fun n => { n with ptr := n.ptr - m.size }
  | [], r, _ => by simp [shiftAfter]
  | a :: p, r, h => by
      have h1 : a.id ≠ m.id := h a (by simp)
      simp [shiftAfter, h1, shiftAfter_split m p r (fun b hb => h b (by simp [hb]))]

theorem lay_split : ∀ (pre : List Blk) (off e : Nat) (m : Blk) (r : List Blk),
    Lay off (pre ++ m :: r) e ↔ Lay off pre m.ptr ∧ Lay (m.ptr + m.size) r e
  | [], off, e, m, r => by
      simp only [List.nil_append, Lay]
      constructor
      · rintro ⟨rfl, h⟩; exact ⟨rfl, h⟩
      · rintro ⟨rfl, h⟩; exact ⟨rfl, h⟩
  | a :: p, off, e, m, r => by
      simp only [List.cons_append, Lay, lay_split p _ _ m r, and_assoc]

theorem lay_app : ∀ (pre : List Blk) (off q e : Nat) (r : List Blk),
    Lay off pre q → Lay q r e → Lay off (pre ++ r) e
  | [], off, q, e, r, h, h2 => by simp only [Lay] at h; subst h; exact h2
  | a :: p, off, q, e, r, h, h2 => ⟨h.1, lay_app p _ q e r h.2 h2⟩

theorem lay_shift (k : Nat) : ∀ (r : List Blk) (off e : Nat), Lay (off + k) r e →
    Lay off (r.map fun n => { n with ptr := n.ptr - k }) (e - k)
  | [], off, e, h => by simp only [Lay, List.map_nil] at *; omega
  | a :: r, off, e, h => by
      simp only [Lay, List.map_cons] at *
      refine ⟨by omega, ?_⟩
      apply lay_shift k r
      have : off + a.size + k = off + k + a.size := by omega
      rw [this]; exact h.2

theorem fromHandle_fst_append (id : Nat) : ∀ (l r : List Blk),
    (fromHandle id (l ++ r)).map (·.1) =
      match fromHandle id l with
      | some p => some p.1
      | none => (fromHandle id r).map (·.1)
  | [], r => by simp [fromHandle]
  | a :: l, r => by
      simp only [List.cons_append, fromHandle]
      split
      · simp
      · exact fromHandle_fst_append id l r

theorem fromHandle_fst_map (id k : Nat) : ∀ (l : List Blk),
    (fromHandle id (l.map fun n => { n with ptr := n.ptr - k })).map (·.1) =
      ((fromHandle id l).map (·.1)).map fun n => { n with ptr := n.ptr - k }
  | [] => by simp [fromHandle]
  | a :: r => by
      simp only [List.map_cons, fromHandle]
      split
      · simp
      · exact fromHandle_fst_map id k r

theorem live_fst {α : Type} (s : St α) (id : Nat) :
    live s id = ((fromHandle id s.blocks).map (·.1)).map fun b => slice s.mem b.ptr b.size := by
  simp [live, Option.map_map]; rfl

/-- The moved part of the memory. -/
theorem slice_moved {α : Type} (mem : List α) (dst src cnt ptr size : Nat) (h1 : dst ≤ src)
    (h2 : src + cnt ≤ mem.length) (h3 : src ≤ ptr) (h4 : ptr + size ≤ src + cnt) :
    slice (writeAt mem dst (slice mem src cnt)) (ptr - (src - dst)) size = slice mem ptr size := by
  have hl := length_slice mem src cnt h2
  apply List.ext_getElem?
  intro i
  rw [getElem?_slice, getElem?_slice, getElem?_writeAt _ _ _ _ (by omega), hl]
  by_cases hi : i < size
  · simp only [hi, ↓reduceIte]
    rw [if_pos (by omega), getElem?_slice, if_pos (by omega)]
    congr 1; omega
  · simp [hi]

end Verif.Mmem
