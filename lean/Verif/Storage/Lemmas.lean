import Verif.Storage.Spec
/-! Lemmas about the storage model. -/
namespace Verif.Storage
open Spec

/-! ### Writing into a buffer that starts with a known text -/

theorem writeChk_ok {l bs : Bytes} {off : Nat} (h : off + bs.length ≤ l.length) :
    writeChk l off bs = .ok (writeAt l off bs) := by rw [writeChk, if_pos h]

theorem take_writeAt (l bs : Bytes) (off : Nat) (h : off + bs.length ≤ l.length) :
    (writeAt l off bs).take (off + bs.length) = l.take off ++ bs := by
  rw [writeAt, List.take_append_of_le_length]
  · apply List.take_of_length_le
    simp only [List.length_append, List.length_take]; omega
  · simp only [List.length_append, List.length_take]; omega

theorem take_writeAt_before (l bs : Bytes) (off n : Nat) (h : off + bs.length ≤ l.length) (hn : n ≤ off) :
    (writeAt l off bs).take n = l.take n := by
  rw [writeAt, List.append_assoc, List.take_append_of_le_length]
  · rw [List.take_take, Nat.min_eq_left hn]
  · rw [List.length_take]; omega

theorem drop_writeAt (l bs : Bytes) (off n : Nat) (h : off + bs.length ≤ l.length)
    (hn : off + bs.length ≤ n) : (writeAt l off bs).drop n = l.drop n := by
  apply List.ext_getElem?
  intro i
  rw [List.getElem?_drop, List.getElem?_drop, getElem?_writeAt _ _ _ _ h, if_neg (by omega)]

theorem takeWhile_text {l t : Bytes} (h : l.take (t.length + 1) = t ++ [0]) (h0 : 0 ∉ t) :
    l.takeWhile (· != 0) = t := by
  rw [← List.take_append_drop (t.length + 1) l, h, List.append_assoc, List.takeWhile_append_of_pos]
  · simp
  · intro c hc
    simp only [bne_iff_ne, ne_eq]
    intro e; exact h0 (e ▸ hc)

/-! ### Tags -/

theorem dec_no95 (n : Nat) : (95 : UInt8) ∉ dec n := by
  intro h
  have := (dec_digit n 95 h).2
  exact absurd this (by decide)

theorem dec_no0 (n : Nat) : (0 : UInt8) ∉ dec n := by
  intro h
  have := (dec_digit n 0 h).1
  exact absurd this (by decide)

/-- The last underscore separates the name from the device index. -/
theorem sep_unique {a c x y : Bytes} (hx : (95 : UInt8) ∉ x) (hy : (95 : UInt8) ∉ y)
    (h : a ++ 95 :: x = c ++ 95 :: y) : a = c ∧ x = y := by
  rcases List.append_eq_append_iff.1 h with ⟨m, h1, h2⟩ | ⟨m, h1, h2⟩
  · cases m with
    | nil => simp at h1 h2; exact ⟨h1.symm, h2⟩
    | cons z m =>
      rw [List.cons_append] at h2
      have := (List.cons.inj h2).2
      exact absurd (by rw [this]; simp) hx
  · cases m with
    | nil => simp at h1 h2; exact ⟨h1, h2.symm⟩
    | cons z m =>
      rw [List.cons_append] at h2
      have := (List.cons.inj h2).2
      exact absurd (by rw [this]; simp) hy

theorem tag_inj {k k' : Key} (h : tag k = tag k') : k = k' := by
  have ⟨h1, h2⟩ := sep_unique (dec_no95 _) (dec_no95 _) h
  exact Prod.ext h1 (dec_inj h2)

/-- `oc_storage_gen_svr_tag` with room for at least one character of the name: no
undefined behaviour, the tag with its terminator at the start of the buffer, the
rest of the buffer unchanged. -/
theorem genTag_ok (name : Bytes) (d : Nat) (mem : Bytes)
    (h : (dec d).length + 3 ≤ min mem.length tagMax) :
    ∃ mem', genTag name d mem =
        .ok (some ((name.take (min mem.length tagMax - (dec d).length - 2)).length + (dec d).length + 1), mem') ∧
      mem'.length = mem.length ∧
      ∃ t, t = name.take (min mem.length tagMax - (dec d).length - 2) ++ 95 :: dec d ∧
        mem'.take (t.length + 1) = t ++ [0] ∧
        mem'.drop (t.length + 1) = mem.drop (t.length + 1) := by
  have hmax : (if mem.length > tagMax then tagMax else mem.length) = min mem.length tagMax := by
    split <;> omega
  have ht : tagMax = 32 := rfl
  unfold genTag
  dsimp only
  rw [hmax]
  generalize hM : min mem.length tagMax = M at h ⊢
  have hMl : M ≤ mem.length := by omega
  have hM32 : M ≤ 32 := by omega
  have hdl : (95 :: dec d).length = (dec d).length + 1 := rfl
  generalize hL : (dec d).length = L at h hdl ⊢
  rw [hdl, if_neg (by omega), if_neg (by omega)]
  have e1 : M - (L + 1) - 1 = M - L - 2 := by omega
  rw [e1]
  generalize hp : name.take (M - L - 2) = p
  have hpl : p.length ≤ M - L - 2 := by rw [← hp, List.length_take]; omega
  have hnl : (if name.length ≥ M - (L + 1) then M - L - 2 else name.length) = p.length := by
    rw [← hp, List.length_take]; split <;> omega
  rw [hnl]
  have hw1 : 0 + (p ++ [0]).length ≤ mem.length := by
    simp only [List.length_append, List.length_singleton]; omega
  rw [writeChk_ok hw1, Out.bind]
  have hl1 := length_writeAt mem 0 (p ++ [0]) hw1
  have hw2 : p.length + (95 :: dec d).length ≤ (writeAt mem 0 (p ++ [0])).length := by
    rw [hl1, hdl]; omega
  rw [writeChk_ok hw2, Out.bind]
  have hl2 := length_writeAt _ p.length (95 :: dec d) hw2
  have hw3 : p.length + (L + 1) + [(0 : UInt8)].length ≤
      (writeAt (writeAt mem 0 (p ++ [0])) p.length (95 :: dec d)).length := by
    rw [hl2, hl1, List.length_singleton]; omega
  rw [writeChk_ok hw3, Out.bind]
  have htl : (p ++ 95 :: dec d).length = p.length + (L + 1) := by rw [List.length_append, hdl]
  refine ⟨_, rfl, by rw [length_writeAt _ _ _ hw3, hl2, hl1], _, rfl, ?_, ?_⟩
  · rw [htl, show p.length + (L + 1) + 1 = p.length + (L + 1) + [(0 : UInt8)].length from rfl,
      take_writeAt _ _ _ hw3]
    congr 1
    rw [show p.length + (L + 1) = p.length + (95 :: dec d).length by rw [hdl], take_writeAt _ _ _ hw2]
    congr 1
    have := take_writeAt mem (p ++ [0]) 0 hw1
    rw [List.take_zero, List.nil_append, Nat.zero_add] at this
    have h2 : (writeAt mem 0 (p ++ [0])).take p.length =
        ((writeAt mem 0 (p ++ [0])).take (p ++ [0]).length).take p.length := by
      rw [List.take_take]; congr 1; simp
    rw [h2, this, List.take_left]
  · rw [htl, drop_writeAt _ _ _ (p.length + (L + 1) + 1) hw3 (Nat.le_refl _), drop_writeAt _ _ _ _ hw2 (by rw [hdl]; omega),
      drop_writeAt _ _ _ _ hw1 (by simp only [List.length_append, List.length_singleton]; omega)]

/-- Too small a buffer: refused, nothing written. -/
theorem genTag_small (name : Bytes) (d : Nat) (mem : Bytes)
    (h : min mem.length tagMax < (dec d).length + 3) : genTag name d mem = .ok (none, mem) := by
  have hmax : (if mem.length > tagMax then tagMax else mem.length) = min mem.length tagMax := by
    split <;> omega
  unfold genTag
  dsimp only
  rw [hmax]
  have hdl : (95 :: dec d).length = (dec d).length + 1 := rfl
  rw [hdl]
  split
  · rfl
  · first | rfl | rw [if_pos (by omega)]

theorem tagOf_eq (name : Bytes) (d : Nat) (hd : (dec d).length ≤ 29) (h0 : 0 ∉ name) :
    tagOf name d = .ok (some (name.take (30 - (dec d).length) ++ 95 :: dec d)) := by
  have ht : tagMax = 32 := rfl
  have hrl : (List.replicate tagMax (0 : UInt8)).length = 32 := by rw [List.length_replicate, ht]
  obtain ⟨mem', h1, _, t, h3, h4, _⟩ := genTag_ok name d (List.replicate tagMax 0) (by rw [hrl, ht]; omega)
  rw [tagOf, h1, Out.bind]
  simp only [Option.map_some]
  rw [hrl, ht, show min 32 32 - (dec d).length - 2 = 30 - (dec d).length by omega] at h3
  rw [takeWhile_text h4, h3]
  rw [h3]
  intro h
  rcases List.mem_append.1 h with h | h
  · exact h0 (List.mem_of_mem_take h)
  · rcases List.mem_cons.1 h with h | h
    · exact absurd h (by decide)
    · exact dec_no0 d h

theorem tagOf_fits {k : Key} (h : Fits k) : tagOf k.1 k.2 = .ok (some (tag k)) := by
  obtain ⟨h0, hne, hl⟩ := h
  have hl' : k.1.length + ((dec k.2).length + 1) < 32 := by
    rw [tag, List.length_append, List.length_cons] at hl; exact hl
  have : k.1.length ≠ 0 := fun e => hne (List.eq_nil_of_length_eq_zero e)
  rw [tagOf_eq _ _ (by omega) h0, List.take_of_length_le (by omega)]
  rfl

theorem tag_no0 {k : Key} (h : Fits k) : (0 : UInt8) ∉ tag k := by
  intro hm
  rcases List.mem_append.1 hm with h' | h'
  · exact h.1 h'
  · rcases List.mem_cons.1 h' with h' | h'
    · exact absurd h' (by decide)
    · exact dec_no0 _ h'

/-! ### The directory -/

/-- The configured directory text is `t`. -/
structure StoreOk (st : Store) (t : Bytes) : Prop where
  size : st.path.length = 64
  len : st.len = t.length
  small : t.length < 64
  text : st.path.take t.length = t
  no0 : 0 ∉ t

theorem fileName_ok {st : Store} {t name : Bytes} (h : StoreOk st t) (ht : t ≠ []) (hn : name ≠ [])
    (h0 : 0 ∉ name) (hl : t.length + name.length < 64) :
    ∃ st', fileName st name = .ok (some (t ++ name, st')) ∧ StoreOk st' t := by
  have htl : t.length ≠ 0 := fun e => ht (List.eq_nil_of_length_eq_zero e)
  have hnl : name.length ≠ 0 := fun e => hn (List.eq_nil_of_length_eq_zero e)
  have hp : pathSize = 64 := rfl
  unfold fileName
  rw [h.len, if_neg htl, hp, if_neg (by omega)]
  have hs := h.size
  have hw1 : t.length + name.length ≤ st.path.length := by omega
  rw [writeChk_ok hw1, Out.bind]
  have hl1 := length_writeAt st.path t.length name hw1
  have hw2 : t.length + name.length + [(0 : UInt8)].length ≤ (writeAt st.path t.length name).length := by
    rw [hl1, List.length_singleton]; omega
  rw [writeChk_ok hw2, Out.bind]
  have hl2 := length_writeAt _ (t.length + name.length) [(0 : UInt8)] hw2
  have htake := take_writeAt _ _ _ hw2
  rw [take_writeAt _ _ _ hw1, h.text] at htake
  have hb := takeWhile_text (l := writeAt (writeAt st.path t.length name) (t.length + name.length) [0])
    (t := t ++ name) (by rw [List.length_append]; exact htake)
    (by
      intro hm
      rcases List.mem_append.1 hm with h' | h'
      · exact h.no0 h'
      · exact h0 h')
  rw [hb]
  refine ⟨_, rfl, ⟨by rw [hl2, hl1]; exact hs, rfl, h.small, ?_, h.no0⟩⟩
  show (writeAt _ _ _).take t.length = t
  rw [take_writeAt_before _ _ _ _ hw2 (by omega), take_writeAt_before _ _ _ _ hw1 (Nat.le_refl _), h.text]

theorem fileName_none {st : Store} {t name : Bytes} (h : StoreOk st t)
    (hl : t = [] ∨ name = [] ∨ 64 ≤ t.length + name.length) : fileName st name = .ok none := by
  have hp : pathSize = 64 := rfl
  have hsm := h.small
  unfold fileName
  rw [h.len, hp]
  rcases hl with e | e | e
  · rw [e]; rfl
  · rw [e]
    by_cases h0 : t.length = 0
    · rw [if_pos h0]
    · rw [if_neg h0, if_pos]; left; simp
  · by_cases h0 : t.length = 0
    · rw [if_pos h0]
    · rw [if_neg h0, if_pos]
      right; omega

/-! ### `oc_storage_config` -/

theorem trim_slashes (q : Bytes) (k : Nat) (hq : q.getLast? ≠ some 47) :
    ∀ j, j < k → trim (q ++ List.replicate k 47) (q.length + (j + 1)) = q.length + 1 := by
  intro j
  induction j with
  | zero =>
    intro hk
    cases hl : q.length with
    | zero => rfl
    | succ n =>
      show trim _ (n + 2) = n + 2
      rw [trim, if_neg]
      rw [List.getElem?_append_left (by omega)]
      rw [List.getLast?_eq_getElem?, hl, Nat.add_sub_cancel] at hq
      exact hq
  | succ j ih =>
    intro hk
    show trim _ ((q.length + j) + 2) = _
    rw [trim, if_pos]
    · exact ih (by omega)
    · rw [List.getElem?_append_right (by omega), List.getElem?_replicate, if_pos (by omega)]

theorem trim_plain (q : Bytes) (hne : q ≠ []) (hl : q.getLast? ≠ some 47) (hs : ¬ SingleChar q) :
    trim q q.length = q.length := by
  match hn : q.length with
  | 0 => exact absurd (List.eq_nil_of_length_eq_zero hn) hne
  | 1 => rfl
  | n + 2 =>
    rw [trim, if_neg]
    intro h47
    apply hs
    have h1 : n + 1 < q.length := by omega
    refine ⟨q.take n, q[n + 1], ?_, ?_⟩
    · have e1 : q.drop n = q[n] :: q.drop (n + 1) := List.drop_eq_getElem_cons (by omega)
      have e2 : q.drop (n + 1) = q[n + 1] :: q.drop (n + 2) := List.drop_eq_getElem_cons h1
      have e3 : q.drop (n + 2) = [] := List.drop_of_length_le (by omega)
      have e4 : q[n] = 47 := by
        rw [List.getElem?_eq_getElem (by omega)] at h47
        exact Option.some.inj h47
      rw [e3] at e2
      rw [e2, e4] at e1
      rw [← e1, List.take_append_drop]
    · intro e
      apply hl
      rw [List.getLast?_eq_getElem?, hn, show n + 2 - 1 = n + 1 by omega, List.getElem?_eq_getElem h1, e]

theorem trim_single (q : Bytes) (c : UInt8) :
    trim (q ++ [47, c]) (q ++ [47, c]).length = trim (q ++ [47, c]) (q.length + 1) := by
  have : (q ++ [47, c]).length = q.length + 2 := by simp
  rw [this, trim, if_pos]
  rw [List.getElem?_append_right (Nat.le_refl _)]; simp

/-- `trim` looks only at the first `n` characters. -/
theorem trim_take (s : Bytes) : ∀ n, trim (s.take n) n = trim s n := by
  have key : ∀ n m, n ≤ m → trim (s.take m) n = trim s n := by
    intro n
    induction n with
    | zero => intro m _; rfl
    | succ n ih =>
      intro m hm
      cases n with
      | zero => rfl
      | succ n =>
        show (if (s.take m)[n]? = some 47 then trim (s.take m) (n + 1) else n + 2) =
          (if s[n]? = some 47 then trim s (n + 1) else n + 2)
        rw [List.getElem?_take, if_pos (show n < m by omega), ih m (by omega)]
  exact fun n => key n n (Nat.le_refl _)

/-- Installing the first `n` characters of a path as directory. -/
theorem install_slash (st : Store) (s q : Bytes) (hs : st.path.length = 64) (h0 : 0 ∉ q)
    (ht : s.take (q.length + 1) = q ++ [47]) (hl : q.length + 1 < 64) :
    ∃ st', install st s (q.length + 1) = .ok (0, st') ∧ StoreOk st' (q ++ [47]) := by
  unfold install
  rw [if_neg (by omega), ht]
  have hw1 : 0 + (q ++ [47]).length ≤ st.path.length := by
    rw [List.length_append, List.length_singleton]; omega
  rw [writeChk_ok hw1, Out.bind]
  have hl1 := length_writeAt st.path 0 (q ++ [47]) hw1
  have htake := take_writeAt st.path (q ++ [47]) 0 hw1
  rw [List.take_zero, List.nil_append, Nat.zero_add] at htake
  have hget : Out.get (writeAt st.path 0 (q ++ [47])) (q.length + 1 - 1) = .ok 47 := by
    rw [Out.get, getElem?_writeAt _ _ _ _ hw1, if_pos (by simp)]
    simp
  rw [hget, Out.bind]
  rw [if_neg (by simp)]
  have hw2 : q.length + 1 + [(0 : UInt8)].length ≤ (writeAt st.path 0 (q ++ [47])).length := by
    rw [hl1, List.length_singleton]; omega
  rw [writeChk_ok hw2, Out.bind]
  refine ⟨_, rfl, ⟨by rw [length_writeAt _ _ _ hw2, hl1]; exact hs, by simp, by simpa using hl, ?_, ?_⟩⟩
  · show (writeAt _ _ _).take _ = _
    rw [take_writeAt_before _ _ _ _ hw2 (by simp), htake]
  · intro hm
    rcases List.mem_append.1 hm with h' | h'
    · exact h0 h'
    · rw [List.mem_singleton] at h'; exact absurd h' (by decide)

theorem install_plain (st : Store) (q : Bytes) (hs : st.path.length = 64) (h0 : 0 ∉ q) (hne : q ≠ [])
    (hlast : q.getLast? ≠ some 47) (hl : q.length + 1 < 64) :
    ∃ st', install st q q.length = .ok (0, st') ∧ StoreOk st' (q ++ [47]) := by
  have hq0 : q.length ≠ 0 := fun e => hne (List.eq_nil_of_length_eq_zero e)
  unfold install
  rw [if_neg (by omega), List.take_length]
  have hw1 : 0 + q.length ≤ st.path.length := by omega
  rw [writeChk_ok hw1, Out.bind]
  have hl1 := length_writeAt st.path 0 q hw1
  have htake := take_writeAt st.path q 0 hw1
  rw [List.take_zero, List.nil_append, Nat.zero_add] at htake
  have hidx : q.length - 1 < q.length := by omega
  have hget : Out.get (writeAt st.path 0 q) (q.length - 1) = .ok q[q.length - 1] := by
    rw [Out.get, getElem?_writeAt _ _ _ _ hw1, if_pos (by omega), Nat.sub_zero,
      List.getElem?_eq_getElem hidx]
  rw [hget, Out.bind]
  have h47 : q[q.length - 1] ≠ 47 := by
    intro e; apply hlast
    rw [List.getLast?_eq_getElem?, List.getElem?_eq_getElem hidx, e]
  have hp : pathSize = 64 := rfl
  rw [if_pos h47, hp, if_neg (by omega)]
  have hw2 : q.length + [(47 : UInt8)].length ≤ (writeAt st.path 0 q).length := by
    rw [hl1, List.length_singleton]; omega
  rw [writeChk_ok hw2, Out.bind]
  have hl2 := length_writeAt _ q.length [(47 : UInt8)] hw2
  have hw3 : q.length + 1 + [(0 : UInt8)].length ≤
      (writeAt (writeAt st.path 0 q) q.length [47]).length := by
    rw [hl2, hl1, List.length_singleton]; omega
  rw [writeChk_ok hw3, Out.bind]
  refine ⟨_, rfl, ⟨by rw [length_writeAt _ _ _ hw3, hl2, hl1]; exact hs, by simp, by simpa using hl, ?_, ?_⟩⟩
  · show (writeAt _ _ _).take _ = _
    rw [take_writeAt_before _ _ _ _ hw3 (by simp), List.length_append, take_writeAt _ _ _ hw2, htake]
  · intro hm
    rcases List.mem_append.1 hm with h' | h'
    · exact h0 h'
    · rw [List.mem_singleton] at h'; exact absurd h' (by decide)

end Verif.Storage
