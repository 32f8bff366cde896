import Verif.Blockwise.Model

/-! Helper lemmas for block-wise transfer. -/

namespace Verif.Blockwise

/-- The buffer holds the first `next` bytes of `p` and lies inside its memory. -/
structure Pre (p : List UInt8) (b : Buf) : Prop where
  cap : b.next ≤ b.mem.length
  len : b.next ≤ p.length
  bytes : b.mem.take b.next = (p.take b.next).map some
  psize : b.psize = 0

theorem pre_alloc (p : List UInt8) (cap : Nat) : Pre p (alloc cap) := by
  constructor <;> simp [alloc]

theorem take_writeAt {α : Type} (l : List α) (off : Nat) (bs : List α)
    (h : off + bs.length ≤ l.length) :
    (writeAt l off bs).take (off + bs.length) = l.take off ++ bs := by
  rw [writeAt, List.take_append_of_le_length
      (by simp only [List.length_append, List.length_take]; omega), List.take_of_length_le]
  simp only [List.length_append, List.length_take]; omega

theorem take_slice {α : Type} (p : List α) (off n k : Nat) (hk : k ≤ (slice p off n).length) :
    (slice p off n).take k = slice p off k := by
  simp only [slice, List.length_take, List.length_drop] at *
  rw [List.take_take]
  congr 1; omega

theorem take_add_slice {α : Type} (p : List α) (off k : Nat) :
    p.take off ++ slice p off k = p.take (off + k) := by
  rw [slice, List.take_add]

/-- One accepted or refused block keeps the buffer a prefix. -/
theorem handle_pre (p : List UInt8) (b : Buf) (h : Pre p b) (off n size : Nat)
    (hs : size ≤ (slice p off n).length) :
    ∃ r b', handleBlock b off (slice p off n) size = .ok (r, b') ∧ Pre p b' ∧
      b'.mem.length = b.mem.length ∧ (r = false → b' = b) ∧
      (r = true → off ≤ b.next ∧ b'.next = if b.next = off then off + size else b.next) := by
  rw [handleBlock]
  by_cases h1 : off ≥ b.mem.length ∨ size > b.mem.length - off ∨ off > b.next
  · rw [if_pos h1]
    exact ⟨false, b, rfl, h, rfl, fun _ => rfl, by simp⟩
  · rw [if_neg h1]
    by_cases h2 : b.next = off
    · rw [if_pos h2, sliceChk, if_pos (by omega)]
      have hd : slice (slice p off n) 0 size = slice p off size := by
        rw [show slice (slice p off n) 0 size = (slice p off n).take size from by simp [slice],
          take_slice _ _ _ _ hs]
      have hsl : (slice p off size).length = size := by
        rw [← take_slice p off n size hs]; simp; omega
      rw [hd]
      simp only [Out.bind]
      rw [writeChk, if_pos (by simp only [List.length_map, hsl]; omega)]
      refine ⟨true, _, rfl, ?_, ?_, by simp, fun _ => ⟨by omega, by simp only [h2, if_true]⟩⟩
      · have hp : off + size ≤ p.length := by
          simp only [slice, List.length_take, List.length_drop] at hs
          have := h.len
          omega
        have hw := take_writeAt b.mem off ((slice p off size).map some)
          (by simp only [List.length_map, hsl]; omega)
        rw [List.length_map, hsl] at hw
        constructor
        · simp only
          rw [length_writeAt _ _ _ (by simp only [List.length_map, hsl]; omega)]
          omega
        · simp only; omega
        · simp only [h2]
          rw [hw, ← h2, h.bytes, h2, ← List.map_append, take_add_slice]
        · exact h.psize
      · simp only
        rw [length_writeAt _ _ _ (by simp only [List.length_map, hsl]; omega)]
    · rw [if_neg h2]
      exact ⟨true, b, rfl, h, rfl, by simp, fun _ => ⟨by omega, by rw [if_neg h2]⟩⟩

theorem handle_next (b : Buf) (data : List UInt8) (off size : Nat)
    (hn : b.next = off) (hl : off < b.mem.length) (hs : size ≤ b.mem.length - off)
    (hd : size ≤ data.length) :
    handleBlock b off data size =
      .ok (true, { b with mem := writeAt b.mem off ((data.take size).map some),
                          next := off + size }) := by
  have : (data.take size).length = size := by simp; omega
  rw [handleBlock, if_neg (by omega), if_pos hn, sliceChk, if_pos (by omega)]
  simp only [Out.bind, slice, List.drop_zero, hn]
  rw [writeChk, if_pos (by simp only [List.length_map, this]; omega)]

/-- Whatever is received, memory is respected. -/
theorem handle_defined (b : Buf) (hb : b.next ≤ b.mem.length) (off : Nat) (data : List UInt8)
    (size : Nat) (hs : size ≤ data.length) :
    ∃ r b', handleBlock b off data size = .ok (r, b') ∧ b'.mem.length = b.mem.length ∧
      b'.next ≤ b'.mem.length ∧ b'.psize = b.psize := by
  by_cases h1 : off ≥ b.mem.length ∨ size > b.mem.length - off ∨ off > b.next
  · exact ⟨false, b, by rw [handleBlock, if_pos h1], rfl, hb, rfl⟩
  · by_cases h2 : b.next = off
    · refine ⟨true, _, handle_next b data off size h2 (by omega) (by omega) hs, ?_, ?_, rfl⟩
      · simp only
        rw [length_writeAt _ _ _ (by simp; omega)]
      · simp only
        rw [length_writeAt _ _ _ (by simp; omega)]
        omega
    · exact ⟨true, b, by rw [handleBlock, if_neg h1, if_neg h2], rfl, hb, rfl⟩

theorem open_pre (p : List UInt8) (max : Nat) (s : Option Buf) (m : Blk)
    (h : ∀ b, s = some b → Pre p b) :
    ∀ b, openBuf max (dropComplete s m) m = some b → Pre p b := by
  intro b hb
  cases s with
  | none =>
    simp only [dropComplete, openBuf] at hb
    split at hb
    · injection hb with hb; subst hb; exact pre_alloc _ _
    · cases hb
  | some b0 =>
    simp only [dropComplete] at hb
    split at hb
    · simp only [openBuf] at hb
      split at hb
      · injection hb with hb; subst hb; exact pre_alloc _ _
      · cases hb
    · simp only [openBuf] at hb
      injection hb with hb; subst hb; exact h _ rfl

theorem open_cases (max : Nat) (s : Option Buf) (m : Blk) (b : Buf)
    (h : openBuf max (dropComplete s m) m = some b) :
    s = some b ∨ b = alloc (capacity max m.size1) := by
  cases s with
  | none =>
    simp only [dropComplete, openBuf] at h
    split at h
    · injection h with h; exact .inr h.symm
    · cases h
  | some b0 =>
    simp only [dropComplete] at h
    split at h
    · simp only [openBuf] at h
      split at h
      · injection h with h; exact .inr h.symm
      · cases h
    · simp only [openBuf] at h
      exact .inl h

end Verif.Blockwise
