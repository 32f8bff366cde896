import Verif.Endpoint.Lemmas
/-!
Writing the text of an endpoint into a buffer.
-/
namespace Verif.Endpoint

/-- The buffer with a text, its terminator and the old bytes behind it. -/
def filled (buf text : Bytes) : Bytes := text ++ 0 :: buf.drop (text.length + 1)

theorem length_filled {buf text : Bytes} (h : text.length < buf.length) :
    (filled buf text).length = buf.length := by
  simp [filled]; omega

theorem write_filled {buf x y : Bytes} (h : x.length + y.length < buf.length) :
    writeChk (filled buf x) x.length (y ++ [0]) = .ok (filled buf (x ++ y)) := by
  rw [writeChk, if_pos (by rw [length_filled (by omega)]; simp; omega)]
  congr 1
  simp only [writeAt, filled, List.take_left', List.length_append, List.append_assoc,
    List.cons_append, List.length_cons, List.length_nil]
  rw [show x.length + (y.length + (0 + 1)) = x.length + (y.length + 1) by omega, ← List.drop_drop,
    List.drop_left, List.drop_succ_cons, List.drop_drop]
  simp
  congr 1
  omega

theorem snprintf_fit {buf x y : Bytes} (h : x.length + y.length < buf.length) :
    snprintf (filled buf x) x.length y = .ok (filled buf (x ++ y)) := by
  have hl := length_filled (buf := buf) (text := x) (by omega)
  rw [snprintf, if_neg (by omega), List.take_of_length_le (by omega)]
  exact write_filled h

theorem snprintf_safe {buf : Bytes} {off : Nat} (h : off ≤ buf.length) (y : Bytes) :
    ∃ b, snprintf buf off y = .ok b ∧ b.length = buf.length := by
  unfold snprintf
  split
  · exact ⟨_, rfl, rfl⟩
  · rw [writeChk, if_pos (by simp; omega)]
    refine ⟨_, rfl, ?_⟩
    rw [length_writeAt]
    simp; omega

theorem flagsToScheme_fit {f : Flags} {buf : Bytes} (h : (scheme f).length < buf.length) :
    flagsToScheme f buf = .ok ((scheme f).length, filled buf (scheme f)) := by
  rw [flagsToScheme, if_pos h, writeChk, if_pos (by omega)]
  simp only [Out.bind]
  rw [writeChk, if_pos (by rw [length_writeAt _ _ _ (by omega)]; simp; omega)]
  simp only [Out.ok.injEq, Prod.mk.injEq, true_and]
  simp only [writeAt, filled, List.take_zero, List.nil_append, Nat.zero_add, List.take_left',
    List.length_cons, List.length_nil]
  rw [← List.drop_drop, List.drop_left, List.drop_drop]
  simp

theorem v4PortString_fit {e : Ep} {buf x : Bytes}
    (h : x.length + (quad e.bytes ++ 58 :: dec e.port.toNat).length < buf.length) :
    v4PortString e (filled buf x) x.length
      = .ok ((quad e.bytes ++ 58 :: dec e.port.toNat).length,
          filled buf (x ++ (quad e.bytes ++ 58 :: dec e.port.toNat))) := by
  simp only [List.length_append, List.length_cons] at h
  have hl := length_filled (buf := buf) (text := x) (by omega)
  rw [v4PortString, v4String, snprintf_fit (by omega)]
  simp only [Out.bind]
  rw [if_neg (by omega)]
  simp only
  rw [if_neg (by omega)]
  have := snprintf_fit (buf := buf) (x := x ++ quad e.bytes) (y := 58 :: dec e.port.toNat)
    (by simp; omega)
  rw [List.length_append] at this
  rw [Int.toNat_natCast, this]
  simp only
  rw [if_neg (by simp; omega)]
  simp

theorem v4PortString_small {e : Ep} {buf : Bytes} {off : Nat} (ho : off < buf.length)
    (h : buf.length ≤ off + (quad e.bytes ++ 58 :: dec e.port.toNat).length) :
    ∃ b, v4PortString e buf off = .ok (-1, b) ∧ b.length = buf.length := by
  simp only [List.length_append, List.length_cons] at h
  obtain ⟨b1, e1, l1⟩ := snprintf_safe (buf := buf) (off := off) (by omega) (quad e.bytes)
  rw [v4PortString, v4String, e1]
  simp only [Out.bind]
  by_cases hs : (quad e.bytes).length ≥ buf.length - off
  · rw [if_pos hs]
    simp only
    rw [if_pos (by omega)]
    exact ⟨b1, rfl, l1⟩
  · rw [if_neg hs]
    simp only
    rw [if_neg (by omega), Int.toNat_natCast]
    obtain ⟨b2, e2, l2⟩ := snprintf_safe (buf := b1) (off := off + (quad e.bytes).length) (by omega)
      (58 :: dec e.port.toNat)
    rw [e2]
    simp only
    rw [if_pos (by simp; omega)]
    exact ⟨b2, rfl, by omega⟩

theorem writeOpen {buf x : Bytes} (h : x.length < buf.length) :
    writeChk (filled buf x) x.length [91] = .ok (x ++ 91 :: buf.drop (x.length + 1)) := by
  rw [writeChk, if_pos (by rw [length_filled h]; simp; omega)]
  congr 1
  simp only [writeAt, filled, List.take_left', List.length_cons, List.length_nil]
  rw [← List.drop_drop, List.drop_left]
  simp

theorem write_after {buf x y : Bytes} {c : UInt8} (h : x.length + 1 + y.length < buf.length) :
    writeChk (x ++ c :: buf.drop (x.length + 1)) (x.length + 1) (y ++ [0])
      = .ok (filled buf (x ++ c :: y)) := by
  rw [writeChk, if_pos (by simp; omega)]
  congr 1
  have ht : (x ++ c :: buf.drop (x.length + 1)).take (x.length + 1) = x ++ [c] := by
    rw [List.take_length_add_append]; simp
  have hd : (x ++ c :: buf.drop (x.length + 1)).drop (x.length + 1 + (y ++ [0]).length)
      = buf.drop ((x ++ c :: y).length + 1) := by
    rw [show List.length x + 1 + List.length (y ++ [0]) = List.length x + ((y ++ [0]).length + 1) from
      (by omega), ← List.drop_drop, List.drop_left, List.drop_succ_cons, List.drop_drop]
    simp
    congr 1
    omega
  rw [writeAt, ht, hd, filled]
  simp

theorem v6PortString_fit {ntop : Bytes → Bytes} {e : Ep} {buf x : Bytes}
    (h : x.length + (91 :: (ntop e.bytes ++ 93 :: 58 :: dec e.port.toNat)).length < buf.length)
    (h8 : 8 ≤ buf.length - x.length) :
    v6PortString ntop e (filled buf x) x.length
      = .ok ((91 :: (ntop e.bytes ++ 93 :: 58 :: dec e.port.toNat)).length,
          filled buf (x ++ 91 :: (ntop e.bytes ++ 93 :: 58 :: dec e.port.toNat))) := by
  simp only [List.length_append, List.length_cons] at h
  have hl := length_filled (buf := buf) (text := x) (by omega)
  rw [v6PortString, if_neg (by omega), writeOpen (by omega)]
  simp only [Out.bind]
  have hlen : (x ++ 91 :: buf.drop (x.length + 1)).length = buf.length := by simp; omega
  rw [v6String, if_pos (by omega), write_after (by omega)]
  simp only [Out.bind]
  rw [if_neg (by omega), Int.toNat_natCast]
  have := snprintf_fit (buf := buf) (x := x ++ 91 :: ntop e.bytes)
    (y := 93 :: 58 :: dec e.port.toNat) (by simp; omega)
  rw [List.length_append, List.length_cons] at this
  rw [show 1 + (ntop e.bytes).length = (ntop e.bytes).length + 1 by omega, this]
  simp only
  rw [if_neg (by simp; omega)]
  simp
  omega

theorem v6PortString_small {ntop : Bytes → Bytes} {e : Ep} {buf : Bytes} {off : Nat}
    (ho : off < buf.length)
    (h : buf.length ≤ off + (91 :: (ntop e.bytes ++ 93 :: 58 :: dec e.port.toNat)).length ∨
      buf.length - off < 8) :
    ∃ b, v6PortString ntop e buf off = .ok (-1, b) ∧ b.length = buf.length := by
  simp only [List.length_append, List.length_cons] at h
  rw [v6PortString]
  split
  · exact ⟨_, rfl, rfl⟩
  · rename_i h8
    have h1 : writeChk buf off [91] = .ok (writeAt buf off [91]) := by
      rw [writeChk, if_pos (by simp; omega)]
    rw [h1]
    simp only [Out.bind]
    have hlen : (writeAt buf off [91]).length = buf.length := length_writeAt _ _ _ (by simp; omega)
    rw [v6String]
    by_cases hf : (ntop e.bytes).length + 1 ≤ (writeAt buf off [91]).length - (off + 1)
    · have h2 : writeChk (writeAt buf off [91]) (off + 1) (ntop e.bytes ++ [0])
          = .ok (writeAt (writeAt buf off [91]) (off + 1) (ntop e.bytes ++ [0])) := by
        rw [writeChk, if_pos (by simp; omega)]
      rw [if_pos hf, h2]
      simp only [Out.bind]
      have hlen2 : (writeAt (writeAt buf off [91]) (off + 1) (ntop e.bytes ++ [0])).length
          = buf.length := by rw [length_writeAt _ _ _ (by simp; omega), hlen]
      rw [if_neg (by omega), Int.toNat_natCast]
      obtain ⟨b2, e2, l2⟩ := snprintf_safe
        (buf := writeAt (writeAt buf off [91]) (off + 1) (ntop e.bytes ++ [0]))
        (off := off + (1 + (ntop e.bytes).length)) (by omega) (93 :: 58 :: dec e.port.toNat)
      rw [e2]
      simp only
      rw [if_pos (by simp; omega)]
      exact ⟨b2, rfl, by omega⟩
    · rw [if_neg hf]
      simp only
      rw [if_pos (by omega)]
      exact ⟨_, rfl, hlen⟩

theorem textOf_v6 {ntop : Bytes → Bytes} {e : Ep} (h : e.flags.ipv4 = false) :
    textOf ntop e = scheme e.flags ++ 91 :: (ntop e.bytes ++ 93 :: 58 :: dec e.port.toNat) := by
  simp [textOf, h]

theorem textOf_v4 {ntop : Bytes → Bytes} {e : Ep} (h : e.flags.ipv4 = true) :
    textOf ntop e = scheme e.flags ++ (quad e.bytes ++ 58 :: dec e.port.toNat) := by
  simp [textOf, h]

theorem length_quad (a : Bytes) : (quad a).length ≤ 15 := by
  have h : ∀ x : UInt8, (dec x.toNat).length ≤ 3 := fun x =>
    dec_length (k := 2) (by have := x.toNat_lt; omega)
  have h0 := h (a.getD 0 0)
  have h1 := h (a.getD 1 0)
  have h2 := h (a.getD 2 0)
  have h3 := h (a.getD 3 0)
  simp only [quad, List.length_append, List.length_cons]
  omega

theorem length_port (p : UInt16) : (dec p.toNat).length ≤ 5 :=
  dec_length (k := 4) (by have := p.toNat_lt; omega)

theorem length_scheme (f : Flags) : (scheme f).length ≤ 12 ∧ 0 < (scheme f).length := by
  unfold scheme
  repeat' split
  all_goals simp

theorem length_joinC : ∀ {gs : List Bytes}, (∀ g ∈ gs, IsGroup g) →
    (joinC gs).length ≤ 5 * gs.length - 1
  | [], _ => by simp [joinC]
  | [g], h => by have := (h g (by simp)).2.1; simpa [joinC] using this
  | g :: k :: gs, h => by
    have hg := (h g (by simp)).2.1
    have := length_joinC (gs := k :: gs) (fun x hx => h x (by simp [hx]))
    simp only [joinC, List.length_append, List.length_cons] at this ⊢
    omega

theorem length_v6 {t a : Bytes} (h : IsV6 t a) : t.length ≤ 39 ∧ a.length = 16 := by
  cases h with
  | full gs hg hn =>
    have := length_joinC hg
    exact ⟨by omega, by rw [length_flat]; omega⟩
  | short l r hl hr hn =>
    have a := length_joinC hl
    have b := length_joinC hr
    refine ⟨by simp only [List.length_append, List.length_cons]; omega, ?_⟩
    simp only [List.length_append, List.length_replicate, length_flat]
    omega

end Verif.Endpoint
