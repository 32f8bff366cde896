import Verif.Query.Model
import Verif.Query.Spec

/-! C25: parsing of queries. -/

namespace Verif.Query

/-! ## Lemmas -/

/-- First part of a query. -/
def seg (q : List UInt8) : List UInt8 := q.takeWhile (· != amp)

theorem findIdx_takeWhile (q : List UInt8) (c : UInt8) :
    q.findIdx? (· == c) = if c ∈ q then some (q.takeWhile (· != c)).length else none := by
  induction q with
  | nil => rfl
  | cons a r ih =>
    rw [List.findIdx?_cons]
    by_cases h : a = c
    · subst h; simp
    · have h1 : (a == c) = false := by simpa using h
      have h2 : (a != c) = true := by simpa using h
      rw [h1, ih]
      simp only [Bool.false_eq_true, if_false, List.takeWhile_cons, h2, if_true, List.mem_cons]
      by_cases hm : c ∈ r
      · simp [hm]
      · have : ¬ c = a := fun e => h e.symm
        simp [hm, this]

theorem memchr_zero (q : List UInt8) (c : UInt8) :
    memchr q 0 c = if c ∈ q then some (q.takeWhile (· != c)).length else none := by
  rw [memchr, List.drop_zero, findIdx_takeWhile]
  split <;> simp_all

/-- Searching from a later start is searching in the rest. -/
theorem memchr_drop (q : List UInt8) (s : Nat) (c : UInt8) :
    memchr q s c = (memchr (q.drop s) 0 c).map (s + ·) := by
  rw [memchr, memchr, List.drop_zero]
  cases (q.drop s).findIdx? (· == c) <;> simp

def Pair.shift (s : Nat) (p : Pair) : Pair := ⟨s + p.key, p.keyLen, p.value.map (s + ·), p.valueLen⟩

theorem pairAt_drop (q : List UInt8) (s : Nat) (_h : s ≤ q.length) :
    pairAt q s = (pairAt (q.drop s) 0).shift s := by
  rw [pairAt, pairAt, memchr_drop q s eqs, memchr_drop q s amp]
  cases memchr (q.drop s) 0 eqs with
  | none =>
    cases memchr (q.drop s) 0 amp with
    | none => simp [Pair.shift]
    | some n => simp [Pair.shift]
  | some v =>
    cases memchr (q.drop s) 0 amp with
    | none =>
      simp only [Option.map_some, Option.map_none, Pair.shift, List.length_drop]
      congr 1 <;> first | omega | (congr 1; omega) | skip
    | some n =>
      simp only [Option.map_some]
      by_cases hnv : n < v
      · rw [if_pos hnv, if_pos (by omega)]
        simp [Pair.shift]
      · rw [if_neg hnv, if_neg (by omega)]
        simp only [Pair.shift, Option.map_some]
        congr 1 <;> first | omega | (congr 1; omega) | skip

/-- The two shapes of a query: one part, or a part, '&' and the rest. -/
theorem shape (q : List UInt8) : amp ∉ q ∨ ∃ s t, q = s ++ amp :: t ∧ amp ∉ s := by
  induction q with
  | nil => left; simp
  | cons c r ih =>
    by_cases h : c = amp
    · exact .inr ⟨[], r, by simp [h], by simp⟩
    · rcases ih with h1 | ⟨s, t, h1, h2⟩
      · left; simp only [List.mem_cons, not_or]; exact ⟨fun e => h e.symm, h1⟩
      · exact .inr ⟨c :: s, t, by simp [h1], by simp only [List.mem_cons, not_or]; exact ⟨fun e => h e.symm, h2⟩⟩

theorem parts_single (s : List UInt8) (h : amp ∉ s) : Spec.parts s = [s] := by
  induction s with
  | nil => rfl
  | cons c r ih =>
    simp only [List.mem_cons, not_or] at h
    rw [Spec.parts, if_neg (fun e => h.1 e.symm), ih h.2]

theorem parts_append (s t : List UInt8) (h : amp ∉ s) : Spec.parts (s ++ amp :: t) = s :: Spec.parts t := by
  induction s with
  | nil => simp [Spec.parts, amp]
  | cons c r ih =>
    simp only [List.mem_cons, not_or] at h
    rw [List.cons_append, Spec.parts, if_neg (fun e => h.1 e.symm), ih h.2]

theorem parts_ne (q : List UInt8) : Spec.parts q ≠ [] := by
  rcases shape q with h | ⟨s, t, rfl, h⟩
  · rw [parts_single q h]; simp
  · rw [parts_append s t h]; simp

theorem takeWhile_append_of_mem (s t : List UInt8) (c : UInt8) (h : c ∈ s) :
    (s ++ t).takeWhile (· != c) = s.takeWhile (· != c) := by
  induction s with
  | nil => cases h
  | cons a r ih =>
    rw [List.cons_append, List.takeWhile_cons, List.takeWhile_cons]
    by_cases e : a = c
    · simp [e]
    · rcases List.mem_cons.1 h with h | h
      · exact absurd h.symm e
      · rw [ih h]

theorem takeWhile_append_not (s t : List UInt8) (c : UInt8) (h : c ∉ s) :
    (s ++ t).takeWhile (· != c) = s ++ t.takeWhile (· != c) := by
  induction s with
  | nil => rfl
  | cons a r ih =>
    simp only [List.mem_cons, not_or] at h
    have : (a != c) = true := by simpa using fun e => h.1 e.symm
    rw [List.cons_append, List.takeWhile_cons, this, if_pos rfl, ih h.2, List.cons_append]

theorem takeWhile_length_lt (s : List UInt8) (c : UInt8) (h : c ∈ s) :
    (s.takeWhile (· != c)).length < s.length := by
  induction s with
  | nil => cases h
  | cons a r ih =>
    rw [List.takeWhile_cons]
    by_cases e : a = c
    · simp [e]
    · rcases List.mem_cons.1 h with h | h
      · exact absurd h.symm e
      · have : (a != c) = true := by simpa using e
        rw [this, if_pos rfl]
        have := ih h
        simp only [List.length_cons]; omega

theorem keyOf_noeq (s : List UInt8) (h : eqs ∉ s) : Spec.keyOf s = s := by
  have := takeWhile_append_not s [] eqs h
  simpa [Spec.keyOf, eqs] using this

theorem valueOf_eq (s : List UInt8) :
    Spec.valueOf s = if eqs ∈ s then some (s.drop ((Spec.keyOf s).length + 1)) else none := by
  induction s with
  | nil => rfl
  | cons a r ih =>
    by_cases e : a = 61
    · subst e; simp [Spec.valueOf, Spec.keyOf, eqs]
    · have h1 : (a != 61) = true := by simpa using e
      have h2 : ¬ eqs = a := fun x => e x.symm
      have hv : Spec.valueOf (a :: r) = Spec.valueOf r := by
        simp [Spec.valueOf, h1]
      have hk : Spec.keyOf (a :: r) = a :: Spec.keyOf r := by
        simp [Spec.keyOf, h1]
      rw [hv, ih, hk]
      simp [h2]

/-- The descriptor the code computes for a part `s` at the start of the query. -/
def desc (s : List UInt8) : Pair :=
  if eqs ∈ s then
    ⟨0, (Spec.keyOf s).length, some ((Spec.keyOf s).length + 1), s.length - ((Spec.keyOf s).length + 1)⟩
  else ⟨0, s.length, none, 0⟩

theorem pairAt_single (s : List UInt8) (h : amp ∉ s) : pairAt s 0 = desc s := by
  rw [pairAt, memchr_zero, memchr_zero, if_neg h, desc]
  by_cases he : eqs ∈ s
  · rw [if_pos he, if_pos he]; rfl
  · rw [if_neg he, if_neg he]; rfl

theorem pairAt_append (s t : List UInt8) (h : amp ∉ s) : pairAt (s ++ amp :: t) 0 = desc s := by
  rw [pairAt, memchr_zero, memchr_zero, if_pos (by simp : amp ∈ s ++ amp :: t), desc,
    takeWhile_append_not s _ amp h]
  have h0 : (amp :: t).takeWhile (· != amp) = [] := by simp
  rw [h0, List.append_nil]
  by_cases he : eqs ∈ s
  · rw [if_pos he, if_pos (by simp [he]), takeWhile_append_of_mem s _ eqs he]
    have := takeWhile_length_lt s eqs he
    dsimp only
    rw [if_neg (by omega)]
    rfl
  · rw [if_neg he]
    by_cases ht : eqs ∈ s ++ amp :: t
    · rw [if_pos ht, takeWhile_append_not s _ eqs he]
      have h1 : (amp :: t).takeWhile (· != eqs) = amp :: t.takeWhile (· != eqs) := by
        rw [List.takeWhile_cons]; rfl
      rw [h1]
      dsimp only
      rw [if_pos (by simp)]
      rfl
    · rw [if_neg ht]; rfl

theorem nextPos_desc (s : List UInt8) : nextPos (desc s) = s.length := by
  unfold desc nextPos
  by_cases he : eqs ∈ s
  · have := takeWhile_length_lt s eqs he
    rw [if_pos he]
    simp only [Spec.keyOf] at *
    show (List.takeWhile (fun x => x != 61) s).length + 1 + _ = _
    have h61 : (List.takeWhile (fun x => x != 61) s).length < s.length := this
    omega
  · rw [if_neg he]

theorem desc_key (s : List UInt8) : (desc s).keyLen = (Spec.keyOf s).length ∧ (desc s).key = 0 := by
  unfold desc
  by_cases he : eqs ∈ s
  · rw [if_pos he]; exact ⟨rfl, rfl⟩
  · rw [if_neg he, keyOf_noeq s he]; exact ⟨rfl, rfl⟩

/-- The bytes of the value a descriptor points to. -/
def valueBytes (q : List UInt8) (v : Option Nat) (n : Nat) : Option (List UInt8) :=
  v.map fun off => slice q off n

theorem keyOf_prefix (s : List UInt8) : s.take (Spec.keyOf s).length = Spec.keyOf s := by
  rw [Spec.keyOf]
  exact (List.prefix_iff_eq_take.1 (List.takeWhile_prefix _)).symm

theorem desc_value (pre s t : List UInt8) :
    valueBytes (pre ++ s ++ t) ((desc s).value.map (pre.length + ·)) (desc s).valueLen = Spec.valueOf s := by
  rw [valueOf_eq, desc]
  by_cases he : eqs ∈ s
  · rw [if_pos he, if_pos he]
    have := takeWhile_length_lt s eqs he
    have hk : (Spec.keyOf s).length < s.length := this
    simp only [valueBytes, Option.map_some, slice]
    rw [List.append_assoc, ← List.drop_drop, List.drop_left, List.drop_append_of_le_length (by omega),
      List.take_left' (by simp)]
  · rw [if_neg he, if_neg he]; rfl

theorem desc_keyBytes (pre s t : List UInt8) :
    slice (pre ++ s ++ t) (pre.length + (desc s).key) (desc s).keyLen = Spec.keyOf s := by
  rw [(desc_key s).1, (desc_key s).2]
  have hle : (Spec.keyOf s).length ≤ s.length := (List.takeWhile_prefix _).length_le
  simp only [slice, Nat.add_zero]
  rw [List.append_assoc, List.drop_left, List.take_append_of_le_length hle, keyOf_prefix]

theorem caseEq_same (a b : List UInt8) (h : (0 : UInt8) ∉ a) : caseEq a b = Spec.sameKey a b := by
  induction a generalizing b with
  | nil => cases b <;> simp [caseEq, Spec.sameKey]
  | cons x r ih =>
    cases b with
    | nil => simp [caseEq, Spec.sameKey]
    | cons y t =>
      simp only [List.mem_cons, not_or] at h
      rw [caseEq]
      have hxy : (lower x = lower y) = (Spec.low x = Spec.low y) := rfl
      by_cases e : lower x = lower y
      · rw [if_pos e, if_neg (fun e => h.1 e.symm), ih t h.2]
        have e' : Spec.low x = Spec.low y := e
        simp [Spec.sameKey, e']
      · rw [if_neg e]
        have e' : ¬ Spec.low x = Spec.low y := e
        simp [Spec.sameKey, e']

theorem sameKey_len (a b : List UInt8) (h : Spec.sameKey a b = true) : b.length = a.length := by
  have : a.map Spec.low = b.map Spec.low := by simpa [Spec.sameKey] using h
  have := congrArg List.length this
  simpa using this.symm

theorem match_iff (key pre s t : List UInt8) (hk : (0 : UInt8) ∉ key) :
    ((desc s).keyLen = key.length ∧
      caseEq key (slice (pre ++ s ++ t) (pre.length + (desc s).key) (desc s).keyLen) = true) ↔
      Spec.sameKey key (Spec.keyOf s) = true := by
  rw [desc_keyBytes, caseEq_same key _ hk, (desc_key s).1]
  exact ⟨fun h => h.2, fun h => ⟨sameKey_len _ _ h, h⟩⟩

theorem nth_one (q : List UInt8) (h : q ≠ []) : findNth q 1 = some (pairAt q 0) := by
  rw [findNth, if_neg (by cases q <;> simp_all)]; rfl

theorem valueLoop_spec (key : List UInt8) (hk : (0 : UInt8) ∉ key) (hne : key ≠ []) :
    ∀ (fuel : Nat) (pre r : List UInt8), r.length < fuel →
      ((valueLoop (pre ++ r) key fuel pre.length).map fun x => valueBytes (pre ++ r) x.1 x.2) =
        (Spec.lookup r key).map Spec.valueOf ∧
      existsLoop (pre ++ r) key fuel pre.length = (Spec.lookup r key).isSome := by
  have hnil : Spec.sameKey key (Spec.keyOf []) = false := by
    cases key with
    | nil => exact absurd rfl hne
    | cons a t => simp [Spec.sameKey, Spec.keyOf]
  intro fuel
  induction fuel with
  | zero => intro pre r h; omega
  | succ fuel ih =>
    intro pre r hf
    rw [valueLoop, existsLoop]
    by_cases hr : r = []
    · subst hr
      rw [if_neg (by simp), if_neg (by simp)]
      have : Spec.lookup [] key = none := by simp [Spec.lookup, Spec.parts, hnil]
      rw [this]; exact ⟨rfl, rfl⟩
    · have hlt : pre.length < (pre ++ r).length := by
        have := List.length_pos_iff.2 hr
        simp only [List.length_append]; omega
      rw [if_pos hlt, if_pos hlt, List.drop_left, nthKeyValue, nthKeyExists, nth_one r hr]
      dsimp only
      rcases shape r with h | ⟨s, t, rfl, h⟩
      · -- last part
        rw [pairAt_single r h, nextPos_desc]
        have hm := match_iff key pre r [] hk
        rw [List.append_nil] at hm
        have hl : Spec.lookup r key = if Spec.sameKey key (Spec.keyOf r) = true then some r else none := by
          rw [Spec.lookup, parts_single r h]
          cases hs : Spec.sameKey key (Spec.keyOf r) <;> simp [hs]
        rw [hl]
        by_cases hs : Spec.sameKey key (Spec.keyOf r) = true
        · rw [if_pos (hm.2 hs), if_pos (hm.2 hs), if_pos hs]
          have := desc_value pre r []
          rw [List.append_nil] at this
          simp only [Option.map_some, this, Option.isSome_some, and_self]
        · rw [if_neg (fun x => hs (hm.1 x)), if_neg (fun x => hs (hm.1 x)), if_neg hs]
          refine ⟨?_, ?_⟩
          · cases fuel with
            | zero => rfl
            | succ f =>
              rw [valueLoop, if_neg (by simp only [List.length_append]; omega)]; rfl
          · cases fuel with
            | zero => rfl
            | succ f =>
              rw [existsLoop, if_neg (by simp)]; rfl
      · rw [pairAt_append s t h, nextPos_desc]
        have hm := match_iff key pre s (amp :: t) hk
        have hl : Spec.lookup (s ++ amp :: t) key =
            if Spec.sameKey key (Spec.keyOf s) = true then some s else Spec.lookup t key := by
          rw [Spec.lookup, parts_append s t h]
          cases hs : Spec.sameKey key (Spec.keyOf s) <;> simp [hs, Spec.lookup]
        rw [List.append_assoc] at hm
        rw [hl]
        by_cases hs : Spec.sameKey key (Spec.keyOf s) = true
        · rw [if_pos (hm.2 hs), if_pos (hm.2 hs), if_pos hs]
          have := desc_value pre s (amp :: t)
          rw [List.append_assoc] at this
          simp only [Option.map_some, this, Option.isSome_some, and_self]
        · rw [if_neg (fun x => hs (hm.1 x)), if_neg (fun x => hs (hm.1 x)), if_neg hs]
          have hlen : s.length < (s ++ amp :: t).length := by simp
          rw [if_pos hlen]
          have hq : pre ++ (s ++ amp :: t) = (pre ++ s ++ [amp]) ++ t := by simp
          have hp : pre.length + (s.length + 1) = (pre ++ s ++ [amp]).length := by simp
          rw [hq, hp]
          refine ih (pre ++ s ++ [amp]) t ?_
          simp only [List.length_append, List.length_cons] at hf; omega

/-! ## Properties -/

/-- C25. Looking up a key (a non-empty C string of at most 255 bytes) gives the
value of the first part of the query whose key is equal ignoring case: its bytes,
or a null pointer if the part has no '='. -/
theorem getValue_spec (q key : List UInt8) (hk : (0 : UInt8) ∉ key) (hne : key ≠ [])
    (hlen : key.length ≤ 255) :
    ((getValue q key).map fun x => valueBytes q x.1 x.2) = (Spec.lookup q key).map Spec.valueOf := by
  rw [getValue, if_neg (by simp only [keyMax]; omega)]
  exact (valueLoop_spec key hk hne (q.length + 1) [] q (by omega)).1

/-- C25. The existence check agrees with the lookup. -/
theorem keyExists_spec (q key : List UInt8) (hk : (0 : UInt8) ∉ key) (hne : key ≠ [])
    (hlen : key.length ≤ 255) : keyExists q key = (Spec.lookup q key).isSome := by
  rw [keyExists, if_neg (by simp only [keyMax]; omega)]
  exact (valueLoop_spec key hk hne (q.length + 1) [] q (by omega)).2

theorem skip_spec (n : Nat) : ∀ (pre r : List UInt8),
    match skipPairs (pre ++ r) n pre.length with
    | none => (Spec.parts r).length ≤ n
    | some st => ∃ p s t, pre ++ r = p ++ s ++ t ∧ st = p.length ∧ (Spec.parts r)[n]? = some s ∧
        amp ∉ s ∧ (t = [] ∨ ∃ t', t = amp :: t') := by
  induction n with
  | zero =>
    intro pre r
    rw [skipPairs]
    dsimp only
    rcases shape r with h | ⟨s, t, rfl, h⟩
    · exact ⟨pre, r, [], by simp, rfl, by rw [parts_single r h]; rfl, h, .inl rfl⟩
    · exact ⟨pre, s, amp :: t, by simp, rfl, by rw [parts_append s t h]; rfl, h, .inr ⟨t, rfl⟩⟩
  | succ n ih =>
    intro pre r
    rw [skipPairs, memchr_drop, List.drop_left, memchr_zero]
    rcases shape r with h | ⟨s, t, rfl, h⟩
    · rw [if_neg h, parts_single r h]; simp
    · rw [if_pos (by simp), takeWhile_append_not s _ amp h]
      have h0 : (amp :: t).takeWhile (· != amp) = [] := by simp
      rw [h0, List.append_nil]
      simp only [Option.map_some]
      have hq : pre ++ (s ++ amp :: t) = (pre ++ s ++ [amp]) ++ t := by simp
      have hp : pre.length + s.length + 1 = (pre ++ s ++ [amp]).length := by simp; omega
      have := ih (pre ++ s ++ [amp]) t
      rw [hq, hp, parts_append s t h]
      cases hsk : skipPairs (pre ++ s ++ [amp] ++ t) n (pre ++ s ++ [amp]).length with
      | none =>
        rw [hsk] at this
        simp only [List.length_cons]
        simp only at this
        omega
      | some st =>
        rw [hsk] at this
        simpa using this

/-- C25. Enumeration by position gives the parts in order: for the nth (n ≥ 1)
call the key and the value of the nth part, and -1 after the last one. -/
theorem nth_spec (q : List UInt8) (hq : q ≠ []) (n : Nat) :
    ((nthKeyValue q n).map fun x => (slice q x.1.key x.1.keyLen, valueBytes q x.1.value x.1.valueLen)) =
      (Spec.parts q)[n - 1]?.map fun s => (Spec.keyOf s, Spec.valueOf s) := by
  rw [nthKeyValue, findNth, if_neg (by cases q <;> simp_all)]
  have := skip_spec (n - 1) [] q
  simp only [List.nil_append, List.length_nil] at this
  cases hs : skipPairs q (n - 1) 0 with
  | none =>
    rw [hs] at this
    simp only [Option.map_none]
    rw [List.getElem?_eq_none this]; rfl
  | some st =>
    rw [hs] at this
    obtain ⟨p, s, t, h1, h2, h3, h4, h5⟩ := this
    rw [h3]
    simp only [Option.map_some]
    have hd : pairAt q st = (desc s).shift p.length := by
      rw [h2, pairAt_drop q p.length (by rw [h1]; simp)]
      have : q.drop p.length = s ++ t := by rw [h1, List.append_assoc, List.drop_left]
      rw [this]
      rcases h5 with rfl | ⟨t', rfl⟩
      · rw [List.append_nil, pairAt_single s h4]
      · rw [pairAt_append s t' h4]
    rw [hd]
    have hk := desc_keyBytes p s t
    have hv := desc_value p s t
    rw [← h1] at hk hv
    simp only [Pair.shift]
    rw [hk, hv]

/-- C25. An empty query has no parts. -/
theorem nth_empty (n : Nat) : nthKeyValue [] n = none := rfl

/-- A query put together from pairs, keys without '&' and '=' and values without
'&', is taken apart into them. -/
theorem parts_build (l : List (List UInt8 × List UInt8)) (hl : l ≠ [])
    (h : ∀ p ∈ l, amp ∉ p.1 ∧ eqs ∉ p.1 ∧ amp ∉ p.2) :
    (Spec.parts (Spec.build l)).map (fun s => (Spec.keyOf s, Spec.valueOf s)) =
      l.map fun p => (p.1, some p.2) := by
  have one : ∀ k v : List UInt8, amp ∉ k → eqs ∉ k → amp ∉ v →
      amp ∉ k ++ eqs :: v ∧ Spec.keyOf (k ++ eqs :: v) = k ∧ Spec.valueOf (k ++ eqs :: v) = some v := by
    intro k v h1 h2 h3
    have hk : Spec.keyOf (k ++ eqs :: v) = k := by
      have := takeWhile_append_not k (eqs :: v) eqs h2
      have h0 : (eqs :: v).takeWhile (· != eqs) = [] := by simp
      rw [h0, List.append_nil] at this
      exact this
    refine ⟨?_, hk, ?_⟩
    · simp only [List.mem_append, List.mem_cons, not_or]
      exact ⟨h1, by decide, h3⟩
    · rw [valueOf_eq, if_pos (by simp), hk, ← List.drop_drop, List.drop_left]; rfl
  induction l with
  | nil => exact absurd rfl hl
  | cons a r ih =>
    obtain ⟨k, v⟩ := a
    obtain ⟨h1, h2, h3⟩ := h (k, v) (List.mem_cons_self ..)
    obtain ⟨o1, o2, o3⟩ := one k v h1 h2 h3
    cases r with
    | nil =>
      show (Spec.parts (k ++ eqs :: v)).map _ = _
      rw [parts_single _ o1]
      simp [o2, o3]
    | cons b r =>
      have hb : Spec.build ((k, v) :: b :: r) = (k ++ eqs :: v) ++ amp :: Spec.build (b :: r) := rfl
      rw [hb, parts_append _ _ o1, List.map_cons, o2, o3, List.map_cons,
        ih (by simp) (fun p hp => h p (List.mem_cons_of_mem _ hp))]

/-- Documented use of the position returned by the enumeration ("the position in
the query string of the next pair"): true for parts with '='. -/
theorem next_position_partial (q : List UInt8) (n next : Nat) (p : Pair)
    (h : nthKeyValue q n = some (p, next)) (v : Nat) (hv : p.value = some v) :
    next = v + p.valueLen + 1 := by
  rw [nthKeyValue] at h
  cases hf : findNth q n with
  | none => rw [hf] at h; cases h
  | some x =>
    rw [hf] at h
    injection h with h
    injection h with h1 h2
    subst h1
    rw [← h2, nextPos, hv]

/-! ### Examples and disagreements -/

/-- `if=a&RT=b&x&rt=c`. -/
def exQ : List UInt8 := [105, 102, 61, 97, 38, 82, 84, 61, 98, 38, 120, 38, 114, 116, 61, 99]

example : getValue exQ [114, 116] = some (some 8, 1) ∧ keyExists exQ [120] = true ∧
    getValue exQ [120] = some (none, 0) ∧ getValue exQ [121] = none ∧
    (Spec.parts exQ).length = 4 := by decide

/-- The position returned for the second or a later key without value is wrong:
for `a=1&b&c=2` and n = 2 the next pair begins at 6, returned is 2. -/
theorem next_position_false :
    (nthKeyValue [97, 61, 49, 38, 98, 38, 99, 61, 50] 2).map (·.2) = some 2 := by decide

/-- Hence the iteration over the values of a key reports more parameters after the
last one of the query: `a=1&b`, key `b`. -/
theorem iterate_more_false :
    iterateValues [97, 61, 49, 38, 98] [98] 5 0 = (2, some (none, 0), true) ∧
      (iterate [97, 61, 49, 38, 98] 2).2 = none := by decide

/-- Iterating over the values of a key is case-sensitive, unlike looking it up. -/
theorem iterate_case_false :
    getValue [82, 84, 61, 49] [114, 116] = some (some 3, 1) ∧
      iterateValues [82, 84, 61, 49] [114, 116] 5 0 = (2, none, false) := by decide

end Verif.Query
