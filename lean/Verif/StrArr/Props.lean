import Verif.StrArr.Spec

/-! Strings and arrays of strings. -/

namespace Verif.StrArr

theorem strlen_append (it r : Bytes) (h : 0 ∉ it) : strlen (it ++ 0 :: r) = .ok it.length := by
  induction it with
  | nil => rfl
  | cons c it ih =>
    have hc : ¬ c = 0 := fun e => h (by simp [e])
    simp only [List.cons_append, strlen, hc, if_false, ih (fun m => h (by simp [m])), Out.bind, List.length_cons]

theorem drop_of_slice (buf : Bytes) (off : Nat) (x : Bytes) (h : slice buf off x.length = x) :
    ∃ r, buf.drop off = x ++ r := by
  refine ⟨(buf.drop off).drop x.length, ?_⟩
  unfold slice at h
  conv => lhs; rw [← List.take_append_drop x.length (buf.drop off)]
  rw [h]

theorem itemSize_eq {buf : Bytes} {items : List Bytes} (h : Holds buf items) {i : Nat} {it : Bytes}
    (hi : items[i]? = some it) : itemSize buf i = .ok it.length := by
  obtain ⟨_, h2, h3⟩ := h.2 i it hi
  obtain ⟨r, hr⟩ := drop_of_slice buf (i * 128) (it ++ [0]) (by simpa using h3)
  unfold itemSize itemMax
  rw [hr, List.append_assoc]
  exact strlen_append it r h2

theorem count_eq {buf : Bytes} {n : Nat} (h : buf.length = n * 128) : count buf = n := by
  unfold count itemMax; omega

theorem place_idx (str : Bytes) : ∀ items : List Bytes,
    (place str items = none ↔ ∀ it ∈ items, it ≠ []) ∧
    ∀ r, place str items = some r → ∃ i, i < items.length ∧ items[i]? = some [] ∧ (∀ j < i, items[j]? ≠ some []) ∧ r = items.set i str := by
  intro items; induction items with
  | nil => exact ⟨by simp [place], fun r h => by cases h⟩
  | cons a l ih =>
    by_cases ha : a = []
    · subst ha
      constructor
      · simp [place]
      · intro r h
        simp only [place, if_true, Option.some.injEq] at h
        exact ⟨0, by simp, rfl, by omega, by simp [← h]⟩
    · constructor
      · simp [place, ha, ih.1]
      · intro r h
        simp only [place, ha, if_false, Option.map_eq_some_iff] at h
        obtain ⟨r', h', rfl⟩ := h
        obtain ⟨i, h1, h2, h3, h4⟩ := ih.2 r' h'
        refine ⟨i + 1, by simp; omega, by simpa using h2, ?_, by simp [h4]⟩
        intro j hj
        cases j with
        | zero => simpa using ha
        | succ j => simpa using h3 j (by omega)

/-- Setting an item. -/
theorem setItem_spec {buf : Bytes} {items : List Bytes} (h : Holds buf items) (str : Bytes) (i : Nat) (hi : i < items.length)
    (hs : 0 ∉ str) (hl : str.length < 128) :
    ∃ buf', setItem buf str i = .ok (true, buf') ∧ Holds buf' (items.set i str) := by
  have hfit : i * 128 + (str ++ [0]).length ≤ buf.length := by
    rw [h.1, List.length_append, List.length_singleton]; omega
  refine ⟨writeAt buf (i * 128) (str ++ [0]), ?_, ?_, ?_⟩
  · unfold setItem itemMax writeChk
    rw [if_neg (by omega), if_pos hfit]; rfl
  · rw [length_writeAt _ _ _ hfit, h.1, List.length_set]
  · intro j it hj
    by_cases e : i = j
    · subst e
      rw [List.getElem?_set_self hi] at hj
      cases hj
      refine ⟨hl, hs, ?_⟩
      have := slice_writeAt_same buf (i * 128) (str ++ [0]) hfit
      simpa using this
    · rw [List.getElem?_set_ne e] at hj
      obtain ⟨h1, h2, h3⟩ := h.2 j it hj
      refine ⟨h1, h2, ?_⟩
      rw [slice_writeAt_disj _ _ _ _ _ hfit]
      · exact h3
      · simp only [List.length_append, List.length_singleton]; omega

theorem addLoop_spec {buf : Bytes} {items : List Bytes} (h : Holds buf items) (str : Bytes)
    (hs : 0 ∉ str) : ∀ (k i : Nat), i + k = items.length → (∀ j < i, items[j]? ≠ some []) →
    (∃ buf' j, j < items.length ∧ items[j]? = some [] ∧ (∀ m < j, items[m]? ≠ some []) ∧ str.length < 128 ∧
      addLoop buf str k i = .ok (true, buf') ∧ Holds buf' (items.set j str)) ∨
    (((∀ it ∈ items, it ≠ []) ∨ str.length ≥ 128) ∧ addLoop buf str k i = .ok (false, buf)) := by
  intro k; induction k with
  | zero =>
    intro i hi hj
    right
    refine ⟨.inl ?_, rfl⟩
    intro it hit e
    obtain ⟨n, hn, e2⟩ := List.getElem_of_mem hit
    exact hj n (by omega) (by rw [List.getElem?_eq_getElem hn, e2, e])
  | succ k ih =>
    intro i hi hj
    have hlt : i < items.length := by omega
    have hg := List.getElem?_eq_getElem hlt
    simp only [addLoop, itemSize_eq h hg, Out.bind]
    by_cases he : items[i] = []
    · rw [if_pos (by simp [he])]
      by_cases hl : str.length < 128
      · left
        obtain ⟨buf', h1, h2⟩ := setItem_spec h str i hlt hs hl
        exact ⟨buf', i, hlt, by rw [hg, he], hj, hl, h1, h2⟩
      · right
        refine ⟨.inr (by omega), ?_⟩
        unfold setItem itemMax
        rw [if_pos (by omega)]
    · rw [if_neg (by simp [he])]
      refine ih (i + 1) (by omega) ?_
      intro j hj'
      by_cases e : j = i
      · subst e; rw [hg]; simpa using he
      · exact hj j (by omega)

/-- Adding a text to an array: it is put into the first free place; it is refused, and
nothing changes, exactly if no place is free or the text has 128 bytes or more. -/
theorem add_item (buf : Bytes) (items : List Bytes) (str : Bytes) (h : Holds buf items) (hs : 0 ∉ str) :
    (∀ r, place str items = some r → str.length < 128 →
      ∃ buf', addItem buf str = .ok (true, buf') ∧ Holds buf' r) ∧
    (place str items = none ∨ str.length ≥ 128 → addItem buf str = .ok (false, buf)) := by
  have key := addLoop_spec h str hs items.length 0 (by omega) (by omega)
  unfold addItem
  rw [count_eq h.1]
  constructor
  · intro r hp hl
    obtain ⟨i, h1, h2, h3, rfl⟩ := (place_idx str items).2 r hp
    rcases key with ⟨buf', j, hj, k1, k2, _, e, hh⟩ | ⟨hn | hn, _⟩
    · have : i = j := by
        rcases Nat.lt_trichotomy i j with hlt | heq | hgt
        · exact absurd h2 (k2 i hlt)
        · exact heq
        · exact absurd k1 (h3 j hgt)
      subst this
      exact ⟨buf', e, hh⟩
    · exact absurd rfl (hn [] (List.mem_of_getElem? h2))
    · omega
  · intro hn
    rcases key with ⟨buf', j, hj, k1, k2, hl, e, hh⟩ | ⟨_, e⟩
    · rcases hn with hn | hn
      · exact absurd rfl ((place_idx str items).1.1 hn [] (List.mem_of_getElem? k1))
      · omega
    · exact e

open Classical in
theorem clear_spec : ∀ (k i : Nat) (buf : Bytes), (i + k) * 128 ≤ buf.length →
    ∃ buf', clear k i buf = .ok buf' ∧ buf'.length = buf.length ∧
      ∀ j, buf'[j]? = if (∃ m, i ≤ m ∧ m < i + k ∧ j = m * 128) then some 0 else buf[j]? := by
  intro k; induction k with
  | zero =>
    intro i buf _
    refine ⟨buf, rfl, rfl, fun j => ?_⟩
    rw [if_neg]; rintro ⟨m, h1, h2, _⟩; omega
  | succ k ih =>
    intro i buf h
    have hfit : i * 128 + ([0] : Bytes).length ≤ buf.length := by simp only [List.length_singleton]; omega
    obtain ⟨b', h1, h2, h3⟩ := ih (i + 1) (writeAt buf (i * 128) [0]) (by rw [length_writeAt _ _ _ hfit]; omega)
    refine ⟨b', ?_, by rw [h2, length_writeAt _ _ _ hfit], ?_⟩
    · unfold clear itemMax writeChk
      rw [if_pos hfit, Out.bind]; exact h1
    · intro j
      rw [h3, getElem?_writeAt _ _ _ _ hfit]
      by_cases e : j = i * 128
      · subst e
        have n1 : ¬ ∃ m, i + 1 ≤ m ∧ m < i + 1 + k ∧ i * 128 = m * 128 := by rintro ⟨m, a, b, c⟩; omega
        have n2 : ∃ m, i ≤ m ∧ m < i + (k + 1) ∧ i * 128 = m * 128 := ⟨i, by omega, by omega, rfl⟩
        rw [if_neg n1, if_pos n2]
        simp
      · by_cases hm : ∃ m, i + 1 ≤ m ∧ m < i + 1 + k ∧ j = m * 128
        · obtain ⟨m, a, b, c⟩ := hm
          rw [if_pos ⟨m, a, b, c⟩, if_pos ⟨m, by omega, by omega, c⟩]
        · rw [if_neg hm, if_neg (by simp only [List.length_singleton]; omega), if_neg]
          rintro ⟨m, a, b, c⟩
          by_cases hmi : m = i
          · exact e (by rw [c, hmi])
          · exact hm ⟨m, by omega, by omega, c⟩

theorem slice_one_eq (buf : Bytes) (o : Nat) (x : UInt8) (h : buf[o]? = some x) : slice buf o 1 = [x] := by
  apply List.ext_getElem?
  intro j
  rw [getElem?_slice]
  cases j with
  | zero => simpa using h
  | succ j => simp

/-- A new array has only free places, whatever the memory contained before. -/
theorem new_array (size : Nat) (junk : Bytes) (h : junk.length = size * 128) :
    ∃ buf, alloc size junk = .ok buf ∧ Holds buf (List.replicate size []) ∧ BHolds buf (List.replicate size []) := by
  obtain ⟨buf, h1, h2, h3⟩ := clear_spec size 0 junk (by omega)
  have key : ∀ i, i < size → slice buf (i * 128) 1 = [0] := by
    intro i hi
    apply slice_one_eq
    rw [h3, if_pos ⟨i, by omega, by omega, rfl⟩]
  refine ⟨buf, h1, ⟨by simp [h2, h], ?_⟩, ⟨by simp [h2, h], ?_⟩⟩
  · intro i it hi
    rw [List.getElem?_replicate] at hi
    split at hi
    case isFalse => cases hi
    case isTrue hlt =>
    cases hi
    exact ⟨by simp, by simp, key i hlt⟩
  · intro i it hi
    rw [List.getElem?_replicate] at hi
    split at hi
    case isFalse => cases hi
    case isTrue hlt =>
    cases hi
    exact ⟨by simp, key i hlt⟩

/-- A history of additions. -/
def addAll : Bytes → List Bytes → Out Bytes
  | buf, [] => .ok buf
  | buf, s :: r => (addItem buf s).bind fun x => addAll x.2 r

/-- What a program that only adds texts sees: as many as there are places are kept in their
order, longer than 127 bytes never, empty ones take no place. -/
theorem add_all (size : Nat) (junk : Bytes) (h : junk.length = size * 128) (strs : List Bytes)
    (hs : ∀ s ∈ strs, 0 ∉ s) :
    ∃ buf buf', alloc size junk = .ok buf ∧ addAll buf strs = .ok buf' ∧
      ∃ free, Holds buf' (((strs.filter fun s => s.length < 128 && s.length != 0).take size) ++ List.replicate free []) := by
  obtain ⟨buf, h1, h2, _⟩ := new_array size junk h
  have key : ∀ (strs : List Bytes) (buf : Bytes) (l : List Bytes) (free : Nat), (∀ s ∈ strs, 0 ∉ s) → (∀ s ∈ l, s ≠ []) →
      Holds buf (l ++ List.replicate free []) →
      ∃ buf' free', addAll buf strs = .ok buf' ∧
        Holds buf' (l ++ ((strs.filter fun s => s.length < 128 && s.length != 0).take free) ++ List.replicate free' []) := by
    intro strs; induction strs with
    | nil => intro buf l free _ _ hh; exact ⟨buf, free, rfl, by simpa using hh⟩
    | cons s strs ih =>
      intro buf l free hs hl hh
      have hs' : ∀ t ∈ strs, 0 ∉ t := fun t ht => hs t (by simp [ht])
      have hadd := add_item buf _ s hh (hs s (by simp))
      have hpl : ∀ (l : List Bytes), (∀ s ∈ l, s ≠ []) → ∀ free, place s (l ++ List.replicate (free + 1) []) =
          some (l ++ s :: List.replicate free []) := by
        intro l; induction l with
        | nil => intro _ free; simp [place, List.replicate_succ]
        | cons a l ihl =>
          intro hl free
          have ha := hl a (by simp)
          simp [place, ha, ihl (fun t ht => hl t (by simp [ht])) free]
      have hpn : ∀ (l : List Bytes), (∀ s ∈ l, s ≠ []) → place s l = none := by
        intro l hl; rw [(place_idx s l).1]; exact hl
      by_cases hlen : s.length < 128
      · cases free with
        | zero =>
          have := hadd.2 (.inl (by simpa using hpn l hl))
          simp only [addAll, this, Out.bind]
          obtain ⟨b', f', k1, k2⟩ := ih buf l 0 hs' hl hh
          exact ⟨b', f', k1, by simpa using k2⟩
        | succ free =>
          obtain ⟨b1, k1, k2⟩ := hadd.1 _ (hpl l hl free) hlen
          simp only [addAll, k1, Out.bind]
          by_cases he : s = []
          · subst he
            obtain ⟨b', f', m1, m2⟩ := ih b1 l (free + 1) hs' hl (by simpa [List.replicate_succ] using k2)
            exact ⟨b', f', m1, by simpa using m2⟩
          · obtain ⟨b', f', m1, m2⟩ := ih b1 (l ++ [s]) free hs'
              (by intro t ht; rcases List.mem_append.1 ht with ht | ht
                  · exact hl t ht
                  · simp only [List.mem_singleton] at ht; rw [ht]; exact he)
              (by simpa using k2)
            refine ⟨b', f', m1, ?_⟩
            have hk : (s.length < 128 && s.length != 0) = true := by simp [hlen, he]
            simp only [List.filter_cons, hk, if_true, List.take_succ_cons]
            simpa using m2
      · have := hadd.2 (.inr (by omega))
        simp only [addAll, this, Out.bind]
        obtain ⟨b', f', k1, k2⟩ := ih buf l free hs' hl hh
        refine ⟨b', f', k1, ?_⟩
        have hk : (decide (s.length < 128) && s.length != 0) = false := by simp [hlen]
        simp only [List.filter_cons, hk]
        exact k2
  obtain ⟨buf', f', k1, k2⟩ := key strs buf [] size hs (by simp) (by simpa using h2)
  exact ⟨buf, buf', h1, k1, f', by simpa using k2⟩

/-- An array of two places, three texts and an empty one. -/
example : (alloc 2 (List.replicate 256 7)).bind (fun buf =>
    (addAll buf [[104, 105], [], [120], [121]]).bind fun buf => (itemSize buf 0).bind fun a => (itemSize buf 1).bind fun c =>
      .ok (a, c)) = .ok (2, 1) := by decide +kernel

/-- Setting an item with an index that is not in the array writes outside of it. -/
theorem set_item_ub : (alloc 1 (List.replicate 128 7)).bind (fun buf => setItem buf [104] 1) = .ub := by
  decide +kernel

/-! ### Joining -/

theorem joinLen_spec {buf : Bytes} {items : List Bytes} (h : Holds buf items) : ∀ (k i len : Nat), i + k = items.length →
    joinLen buf k i len = .ok (len + (((items.drop i).filter fun s => s.length != 0).map fun s => s.length + 1).sum) := by
  intro k; induction k with
  | zero => intro i len hi; rw [List.drop_eq_nil_of_le (by omega)]; rfl
  | succ k ih =>
    intro i len hi
    have hlt : i < items.length := by omega
    simp only [joinLen, itemSize_eq h (List.getElem?_eq_getElem hlt), Out.bind]
    rw [ih (i + 1) _ (by omega)]
    have hd := List.drop_eq_getElem_cons hlt
    generalize List.drop i items = x at hd ⊢
    generalize items[i] = y at hd ⊢
    subst hd
    congr 1
    by_cases he : y.length = 0
    · simp [he]
    · have hf : (y.length != 0) = true := by simp [he]
      simp only [ne_eq, he, not_false_eq_true, if_true, List.filter_cons, hf, List.map_cons, List.sum_cons]; omega

theorem item_slice {buf : Bytes} {items : List Bytes} (h : Holds buf items) {i : Nat} {it : Bytes}
    (hi : items[i]? = some it) : slice buf (i * 128) it.length = it := by
  obtain ⟨_, _, h3⟩ := h.2 i it hi
  have : (slice buf (i * 128) (it.length + 1)).take it.length = (it ++ [0]).take it.length := by rw [h3]
  unfold slice at *
  rw [List.take_take] at this
  simpa using this

/-- What is to be written after `len` bytes. -/
def rest (started : Bool) : List Bytes → Bytes
  | [] => []
  | a :: r => (if started then 32 :: a else a) ++ rest true r

theorem rest_joined : ∀ l : List Bytes, rest false l = joined l ∧ (l ≠ [] → rest true l = 32 :: joined l) := by
  intro l; induction l with
  | nil => exact ⟨rfl, fun h => absurd rfl h⟩
  | cons a l ih =>
    cases l with
    | nil => simp [rest, joined]
    | cons c l =>
      have := ih.2 (by simp)
      simp only [rest, Bool.false_eq_true, if_false, if_true, joined] at this ⊢
      constructor
      · rw [this]
      · intro _; rw [this]; rfl

theorem rest_len : ∀ (l : List Bytes), (∀ s ∈ l, s ≠ []) → (rest true l).length = (l.map fun s => s.length + 1).sum := by
  intro l; induction l with
  | nil => intro _; rfl
  | cons a l ih =>
    intro h
    simp only [rest, if_true, List.cons_append, List.length_cons, List.length_append, List.map_cons, List.sum_cons,
      ih fun s hs => h s (by simp [hs])]
    omega

theorem writeAt_take (out : Bytes) (len : Nat) (bs : Bytes) (h : len + bs.length ≤ out.length) :
    (writeAt out len bs).take (len + bs.length) = out.take len ++ bs := by
  unfold writeAt
  rw [List.take_append_of_le_length (by simp; omega), List.take_of_length_le (by simp; omega)]

theorem joinCopy_spec {buf : Bytes} {items : List Bytes} (h : Holds buf items) : ∀ (k i len : Nat) (out : Bytes),
    i + k = items.length →
    len + (rest (decide (len > 0)) ((items.drop i).filter fun s => s.length != 0)).length ≤ out.length →
    ∃ out', joinCopy buf k i out len = .ok (out', len + (rest (decide (len > 0)) ((items.drop i).filter fun s => s.length != 0)).length) ∧
      out'.length = out.length ∧
      out'.take (len + (rest (decide (len > 0)) ((items.drop i).filter fun s => s.length != 0)).length) =
        out.take len ++ rest (decide (len > 0)) ((items.drop i).filter fun s => s.length != 0) := by
  intro k; induction k with
  | zero =>
    intro i len out hi hfit
    rw [List.drop_eq_nil_of_le (by omega)]
    exact ⟨out, rfl, rfl, by simp [rest]⟩
  | succ k ih =>
    intro i len out hi hfit
    have hlt : i < items.length := by omega
    have hg := List.getElem?_eq_getElem hlt
    rw [List.drop_eq_getElem_cons hlt] at hfit ⊢
    simp only [joinCopy, itemSize_eq h hg, Out.bind]
    unfold itemMax
    rw [item_slice h hg]
    by_cases he : items[i].length = 0
    · have h1 : joinOne out len items[i] = .ok (out, len) := by simp [joinOne, he]
      rw [h1]
      simp only [List.filter_cons, he, bne_self_eq_false, Bool.false_eq_true, if_false] at hfit ⊢
      exact ih (i + 1) len out (by omega) hfit
    · have hf : (items[i].length != 0) = true := by simp [he]
      simp only [List.filter_cons, hf, if_true] at hfit ⊢
      by_cases hl : len > 0
      · simp only [hl, decide_true, rest, if_true, List.cons_append, List.length_cons, List.length_append] at hfit ⊢
        have f1 : len + ([32] : Bytes).length ≤ out.length := by simp only [List.length_singleton]; omega
        have f2 : len + 1 + items[i].length ≤ (writeAt out len [32]).length := by rw [length_writeAt _ _ _ f1]; omega
        have h1 : joinOne out len items[i] = .ok (writeAt (writeAt out len [32]) (len + 1) items[i], len + 1 + items[i].length) := by
          simp only [joinOne, he, ne_eq, not_false_eq_true, if_true, hl, writeChk, if_pos f1, Out.bind, if_pos f2]
        rw [h1]
        have hlen2 : (writeAt (writeAt out len [32]) (len + 1) items[i]).length = out.length := by
          rw [length_writeAt _ _ _ f2, length_writeAt _ _ _ f1]
        have hd : decide (len + 1 + items[i].length > 0) = true := decide_eq_true (by omega)
        obtain ⟨out', k1, k2, k3⟩ := ih (i + 1) (len + 1 + items[i].length) _ (by omega)
          (by rw [hlen2, hd]; omega)
        rw [hd] at k1 k3
        refine ⟨out', ?_, by rw [k2, hlen2], ?_⟩
        · dsimp only; rw [k1]; congr 2; omega
        · rw [show len + (items[i].length + (rest true (List.filter (fun s => s.length != 0) (List.drop (i + 1) items))).length + 1) =
            len + 1 + items[i].length + (rest true (List.filter (fun s => s.length != 0) (List.drop (i + 1) items))).length by omega, k3,
            writeAt_take _ _ _ f2]
          have : (writeAt out len [32]).take (len + 1) = out.take len ++ [32] := writeAt_take out len [32] f1
          rw [this]; simp
      · have hl0 : len = 0 := by omega
        subst hl0
        simp only [Nat.lt_irrefl, gt_iff_lt, decide_false, rest, Bool.false_eq_true, if_false, List.length_append, Nat.zero_add] at hfit ⊢
        have f1 : 0 + items[i].length ≤ out.length := by omega
        have h1 : joinOne out 0 items[i] = .ok (writeAt out 0 items[i], 0 + items[i].length) := by
          simp only [joinOne, he, ne_eq, not_false_eq_true, if_true, Nat.lt_irrefl, gt_iff_lt, if_false, writeChk, if_pos f1, Out.bind]
        rw [h1]
        have hd : decide (0 + items[i].length > 0) = true := decide_eq_true (by omega)
        obtain ⟨out', k1, k2, k3⟩ := ih (i + 1) (0 + items[i].length) (writeAt out 0 items[i]) (by omega)
          (by rw [length_writeAt _ _ _ f1, hd]; omega)
        rw [hd] at k1 k3
        refine ⟨out', ?_, by rw [k2, length_writeAt _ _ _ f1], ?_⟩
        · dsimp only; rw [k1]; congr 2; omega
        · rw [show items[i].length + (rest true (List.filter (fun s => s.length != 0) (List.drop (i + 1) items))).length =
            0 + items[i].length + (rest true (List.filter (fun s => s.length != 0) (List.drop (i + 1) items))).length by omega, k3,
            writeAt_take _ _ _ f1]
          simp

/-- Joining an array that is not empty gives its texts with one space between them, exactly
as long as the memory allocated for it, with NUL at the end. Full claim: every array; an
array without texts fails an assertion (`join_empty_ub`). -/
theorem join_partial (buf : Bytes) (items : List Bytes) (junk : Nat → Bytes) (h : Holds buf items)
    (hj : ∀ n, (junk n).length = n) (hne : ∃ it ∈ items, it ≠ []) :
    join buf junk = .ok (joined (items.filter fun s => s.length != 0) ++ [0]) := by
  have hc := count_eq h.1
  have h1 := joinLen_spec h items.length 0 0 (by omega)
  have hall : ∀ s ∈ items.filter (fun s => s.length != 0), s ≠ [] := by
    intro s hs e; have := (List.mem_filter.1 hs).2; simp [e] at this
  have hnil : items.filter (fun s => s.length != 0) ≠ [] := by
    obtain ⟨it, h1, h2⟩ := hne
    exact List.ne_nil_of_mem (List.mem_filter.2 ⟨h1, by simpa using h2⟩)
  have hrl := rest_len _ hall
  have hrj := (rest_joined (items.filter fun s => s.length != 0))
  rw [hrj.2 hnil] at hrl
  simp only [List.length_cons] at hrl
  simp only [List.drop_zero, Nat.zero_add] at h1
  rw [← hrl] at h1
  obtain ⟨out, k1, k2, k3⟩ := joinCopy_spec h items.length 0 0
    (junk ((joined (items.filter fun s => s.length != 0)).length + 1)) (by omega)
    (by simp only [List.drop_zero, Nat.lt_irrefl, gt_iff_lt, decide_false, hrj.1, hj]; omega)
  simp only [List.drop_zero, Nat.lt_irrefl, gt_iff_lt, decide_false, hrj.1, Nat.zero_add, List.take_zero, List.nil_append] at k1 k3
  rw [hj] at k2
  unfold join
  rw [hc, h1, Out.bind, if_neg (by omega), k1, Out.bind]
  have f : (joined (items.filter fun s => s.length != 0)).length + ([0] : Bytes).length ≤ out.length := by
    simp only [List.length_singleton]; omega
  simp only [writeChk, if_pos f]
  have := writeAt_take out _ [0] f
  rw [k3, List.take_of_length_le (by rw [length_writeAt _ _ _ f]; simp only [List.length_singleton]; omega)] at this
  rw [this]

/-- Two texts. -/
example : (alloc 3 (List.replicate 384 7)).bind (fun buf => (addAll buf [[104, 105], [120]]).bind fun buf =>
    join buf fun n => List.replicate n 9) = .ok [104, 105, 32, 120, 0] := by decide +kernel

/-- Joining an array without texts: memory of size 0 is requested, an assertion fails. -/
theorem join_empty_ub : (alloc 3 (List.replicate 384 7)).bind (fun buf => join buf fun n => List.replicate n 9) = .ub := by
  decide +kernel

/-! ### Byte strings -/

theorem bSize_eq {buf : Bytes} {items : List Bytes} (h : BHolds buf items) {i : Nat} {it : Bytes}
    (hi : items[i]? = some it) : bSize buf i = .ok it.length := by
  obtain ⟨h1, h2⟩ := h.2 i it hi
  have : buf[i * 128]? = some (UInt8.ofNat it.length) := by
    have h3 : (slice buf (i * 128) (it.length + 1))[0]? = (UInt8.ofNat it.length :: it)[0]? := by rw [h2]
    rw [getElem?_slice] at h3; simpa using h3
  unfold bSize Out.get itemMax
  rw [this]
  simp only [Out.bind]
  congr 1
  simp; omega

/-- A byte string is read as it was stored. -/
theorem byte_item (buf : Bytes) (items : List Bytes) (i : Nat) (it : Bytes) (h : BHolds buf items)
    (hi : items[i]? = some it) : bItem buf i = .ok it := by
  obtain ⟨h1, h2⟩ := h.2 i it hi
  unfold bItem
  rw [bSize_eq h hi]
  have hlt : i < items.length := by
    rcases Nat.lt_or_ge i items.length with h | h
    · exact h
    · rw [List.getElem?_eq_none h] at hi; cases hi
  have hf : i * 128 + 1 + it.length ≤ buf.length := by rw [h.1]; omega
  simp only [Out.bind, sliceChk, itemMax, if_pos hf]
  congr 1
  apply List.ext_getElem?
  intro j
  have h3 : (slice buf (i * 128) (it.length + 1))[j + 1]? = (UInt8.ofNat it.length :: it)[j + 1]? := by rw [h2]
  rw [getElem?_slice] at h3 ⊢
  simp only [List.getElem?_cons_succ] at h3
  rw [← h3]
  by_cases hj : j < it.length
  · simp [hj, Nat.add_assoc, Nat.add_comm]
  · simp [hj]

theorem bSet_spec {buf : Bytes} {items : List Bytes} (h : BHolds buf items) (str : Bytes) (i : Nat) (hi : i < items.length)
    (hl : str.length < 128) : ∃ buf', bSet buf str i = .ok (true, buf') ∧ BHolds buf' (items.set i str) := by
  have hfit : i * 128 + (UInt8.ofNat str.length :: str).length ≤ buf.length := by
    rw [h.1, List.length_cons]; omega
  have f1 : i * 128 + ([UInt8.ofNat str.length] : Bytes).length ≤ buf.length := by
    rw [List.length_cons] at hfit; rw [List.length_singleton]; omega
  have f2 : i * 128 + 1 + str.length ≤ (writeAt buf (i * 128) [UInt8.ofNat str.length]).length := by
    rw [length_writeAt _ _ _ f1]; simp only [List.length_cons] at hfit; omega
  have hw : writeAt (writeAt buf (i * 128) [UInt8.ofNat str.length]) (i * 128 + 1) str =
      writeAt buf (i * 128) (UInt8.ofNat str.length :: str) := by
    apply List.ext_getElem?
    intro j
    rw [getElem?_writeAt _ _ _ _ f2, getElem?_writeAt _ _ _ _ f1, getElem?_writeAt _ _ _ _ hfit]
    simp only [List.length_cons]
    by_cases c1 : i * 128 + 1 ≤ j ∧ j < i * 128 + 1 + str.length
    · rw [if_pos c1, if_pos (by omega), show j - i * 128 = (j - (i * 128 + 1)) + 1 by omega, List.getElem?_cons_succ]
    · rw [if_neg c1]
      simp only [List.length_nil, Nat.zero_add]
      by_cases c2 : j = i * 128
      · rw [if_pos (by omega), if_pos (by omega)]; simp [c2]
      · rw [if_neg (by omega), if_neg (by omega)]
  refine ⟨writeAt buf (i * 128) (UInt8.ofNat str.length :: str), ?_, ?_, ?_⟩
  · unfold bSet
    rw [count_eq h.1, if_neg (by omega)]
    simp only [itemMax, writeChk]
    rw [if_neg (by omega), if_pos f1, Out.bind, if_pos f2, Out.bind, hw]
  · rw [length_writeAt _ _ _ hfit, h.1, List.length_set]
  · intro j it hj
    by_cases e : i = j
    · subst e
      rw [List.getElem?_set_self hi] at hj
      cases hj
      refine ⟨hl, ?_⟩
      have := slice_writeAt_same buf (i * 128) (UInt8.ofNat str.length :: str) hfit
      simpa using this
    · rw [List.getElem?_set_ne e] at hj
      obtain ⟨h1, h3⟩ := h.2 j it hj
      refine ⟨h1, ?_⟩
      rw [slice_writeAt_disj _ _ _ _ _ hfit]
      · exact h3
      · simp only [List.length_cons]; omega

theorem bAddLoop_spec {buf : Bytes} {items : List Bytes} (h : BHolds buf items) (str : Bytes) :
    ∀ (k i : Nat), i + k = items.length → (∀ j < i, items[j]? ≠ some []) →
    (∃ buf' j, j < items.length ∧ items[j]? = some [] ∧ (∀ m < j, items[m]? ≠ some []) ∧ str.length < 128 ∧
      bAddLoop buf str k i = .ok (true, buf') ∧ BHolds buf' (items.set j str)) ∨
    (((∀ it ∈ items, it ≠ []) ∨ str.length ≥ 128) ∧ bAddLoop buf str k i = .ok (false, buf)) := by
  intro k; induction k with
  | zero =>
    intro i hi hj
    right
    refine ⟨.inl ?_, rfl⟩
    intro it hit e
    obtain ⟨n, hn, e2⟩ := List.getElem_of_mem hit
    exact hj n (by omega) (by rw [List.getElem?_eq_getElem hn, e2, e])
  | succ k ih =>
    intro i hi hj
    have hlt : i < items.length := by omega
    have hg := List.getElem?_eq_getElem hlt
    simp only [bAddLoop, bSize_eq h hg, Out.bind]
    by_cases he : items[i] = []
    · rw [if_pos (by simp [he])]
      by_cases hl : str.length < 128
      · left
        obtain ⟨buf', h1, h2⟩ := bSet_spec h str i hlt hl
        exact ⟨buf', i, hlt, by rw [hg, he], hj, hl, h1, h2⟩
      · right
        refine ⟨.inr (by omega), ?_⟩
        unfold bSet itemMax
        rw [count_eq h.1, if_neg (by omega), if_pos (by omega)]
    · rw [if_neg (by simp [he])]
      refine ih (i + 1) (by omega) ?_
      intro j hj'
      by_cases e : j = i
      · subst e; rw [hg]; simpa using he
      · exact hj j (by omega)

/-- Adding a byte string to an array: the same as for texts, with any bytes. -/
theorem add_byte_item (buf : Bytes) (items : List Bytes) (str : Bytes) (h : BHolds buf items) :
    (∀ r, place str items = some r → str.length < 128 →
      ∃ buf', bAdd buf str = .ok (true, buf') ∧ BHolds buf' r) ∧
    (place str items = none ∨ str.length ≥ 128 → bAdd buf str = .ok (false, buf)) := by
  have key := bAddLoop_spec h str items.length 0 (by omega) (by omega)
  unfold bAdd
  rw [count_eq h.1]
  constructor
  · intro r hp hl
    obtain ⟨i, h1, h2, h3, rfl⟩ := (place_idx str items).2 r hp
    rcases key with ⟨buf', j, hj, k1, k2, _, e, hh⟩ | ⟨hn | hn, _⟩
    · have : i = j := by
        rcases Nat.lt_trichotomy i j with hlt | heq | hgt
        · exact absurd h2 (k2 i hlt)
        · exact heq
        · exact absurd k1 (h3 j hgt)
      subst this
      exact ⟨buf', e, hh⟩
    · exact absurd rfl (hn [] (List.mem_of_getElem? h2))
    · omega
  · intro hn
    rcases key with ⟨buf', j, hj, k1, k2, hl, e, hh⟩ | ⟨_, e⟩
    · rcases hn with hn | hn
      · exact absurd rfl ((place_idx str items).1.1 hn [] (List.mem_of_getElem? k1))
      · omega
    · exact e

/-- Two byte strings, one with NUL. -/
example : (alloc 2 (List.replicate 256 7)).bind (fun buf => (bAdd buf [0, 1]).bind fun x => (bAdd x.2 [9]).bind fun x =>
    (bItem x.2 0).bind fun a => (bItem x.2 1).bind fun c => .ok (a, c)) = .ok ([0, 1], [9]) := by decide +kernel

/-! ### Strings -/

theorem newString_eq (s junk : Bytes) (h : junk.length = s.length + 1) : newString s junk = .ok (s ++ [0]) := by
  have f1 : 0 + s.length ≤ junk.length := by omega
  have f2 : s.length + ([0] : Bytes).length ≤ (writeAt junk 0 s).length := by
    rw [length_writeAt _ _ _ f1]; simp only [List.length_singleton]; omega
  have e1 := writeAt_take junk 0 s f1
  have e2 := writeAt_take (writeAt junk 0 s) s.length [0] f2
  simp only [Nat.zero_add, List.take_zero, List.nil_append] at e1
  rw [e1, List.take_of_length_le (by rw [length_writeAt _ _ _ f2, length_writeAt _ _ _ f1]; simp; omega)] at e2
  simp only [newString, writeChk, if_pos f1, Out.bind, if_pos f2, e2]

/-- Setting a string to bytes that are not part of itself gives exactly these bytes and
NUL. Full claim: any bytes; see `set_alias_ub`. -/
theorem set_string_partial (dst : Option Bytes) (s : Bytes) (junk : Nat → Bytes) (hj : ∀ n, (junk n).length = n) :
    setString dst (.other s) junk = .ok (some (s ++ [0])) ∧ setString dst .null junk = .ok none := by
  constructor
  · simp only [setString, newString_eq s _ (hj _), Out.bind]
  · rfl

/-- Setting a string to a part of itself: the bytes are freed before they are copied. -/
theorem set_alias_ub (s : Bytes) (off len : Nat) (junk : Nat → Bytes) : setString (some s) (.inside off len) junk = .ub := rfl

/-- Concatenation. -/
theorem concat_strings (s t : Bytes) (junk : Nat → Bytes) (hj : ∀ n, (junk n).length = n) :
    concat s t junk = .ok (s ++ t ++ [0]) := by
  have hl := hj (s.length + t.length + 1)
  unfold concat
  generalize junk (s.length + t.length + 1) = b at hl ⊢
  have f1 : 0 + s.length ≤ b.length := by omega
  have f2 : s.length + t.length ≤ (writeAt b 0 s).length := by rw [length_writeAt _ _ _ f1]; omega
  have f3 : s.length + t.length + ([0] : Bytes).length ≤ (writeAt (writeAt b 0 s) s.length t).length := by
    rw [length_writeAt _ _ _ f2, length_writeAt _ _ _ f1]; simp only [List.length_singleton]; omega
  have e1 := writeAt_take b 0 s f1
  have e2 := writeAt_take _ s.length t f2
  have e3 := writeAt_take _ (s.length + t.length) [0] f3
  simp only [Nat.zero_add, List.take_zero, List.nil_append] at e1
  rw [e1] at e2
  rw [e2, List.take_of_length_le (by
    rw [length_writeAt _ _ _ f3, length_writeAt _ _ _ f2, length_writeAt _ _ _ f1]; simp; omega)] at e3
  simp only [writeChk, if_pos f1, Out.bind, if_pos f2, if_pos f3, e3]

/-- Strings are equal exactly if their bytes are; a missing string counts as empty. -/
theorem equal_iff (a c : Option Bytes) : isEqual a c = true ↔ a.getD [] = c.getD [] := by
  unfold isEqual
  simp only [Bool.and_eq_true, Bool.or_eq_true, beq_iff_eq]
  constructor
  · rintro ⟨h1, h | h⟩
    · have h' : (c.getD []).length = 0 := by omega
      rw [List.eq_nil_of_length_eq_zero h, List.eq_nil_of_length_eq_zero h']
    · exact h
  · intro h; rw [h]; exact ⟨rfl, .inr rfl⟩

example : isEqual (some [104, 0, 105]) (some [104, 0, 105]) = true ∧ isEqual (some [104]) none = false := by
  constructor <;> decide

end Verif.StrArr
