import Verif.Etag.Model
import Verif.Query.Props
import Verif.Base64.Props

/-! C56: the ETags listed in a query for incremental changes. -/

namespace Verif.Etag

open Verif.Rep (Bytes b)

namespace Spec

/-- The items between commas (44), empty ones left out. -/
def items : Bytes → List Bytes
  | [] => []
  | c :: l =>
    if c = 44 then items l
    else
      match l with
      | [] => [[c]]
      | d :: _ =>
        if d = 44 then [c] :: items l
        else
          match items l with
          | [] => [[c]]
          | s :: t => (c :: s) :: t

/-- The ETag an item stands for: base64url without padding of exactly eight bytes,
the lowest first. -/
def Stands (item : Bytes) (e : Nat) : Prop :=
  ∃ l, Base64.Spec.Decodes true false item l ∧ l.length = 8 ∧ e = l.foldr (fun x n => x.toNat + 256 * n) 0

/-- `out` are the ETags of the items that stand for one, in order. -/
inductive Listed : List Bytes → List Nat → Prop
  | nil : Listed [] []
  | take {i l e out} : Stands i e → Listed l out → Listed (i :: l) (e :: out)
  | skip {i l out} : (∀ e, ¬ Stands i e) → Listed l out → Listed (i :: l) out

theorem Stands.unique {i : Bytes} (hi : i.length ≤ intMax) {e e' : Nat} (h : Stands i e) (h' : Stands i e') :
    e = e' := by
  obtain ⟨l, h1, h2, h3⟩ := h
  obtain ⟨l', h1', h2', h3'⟩ := h'
  have a := (Base64.decode_iff .url false i l 12 hi).2 ⟨h1, by omega⟩
  have a' := (Base64.decode_iff .url false i l' 12 hi).2 ⟨h1', by omega⟩
  rw [a] at a'
  cases a'
  rw [h3, h3']

theorem Listed.append {l l' : List Bytes} {o o' : List Nat} (h : Listed l o) (h' : Listed l' o') :
    Listed (l ++ l') (o ++ o') := by
  induction h with
  | nil => exact h'
  | take s _ ih => exact .take s ih
  | skip s _ ih => exact .skip s ih

end Spec

open Spec

/-- One item. -/
theorem incValue_spec (i : Bytes) (hi : i.length ≤ intMax) :
    (∃ e, incValue i = .ok (some e) ∧ Stands i e) ∨ (incValue i = .ok none ∧ ∀ e, ¬ Stands i e) := by
  unfold incValue
  have hub := Base64.decode_no_ub .url false i 12 hi
  cases hd : Base64.decode .url false i 12 with
  | ub => exact absurd hd hub
  | ok r =>
    cases r with
    | none =>
      refine .inr ⟨rfl, ?_⟩
      rintro e ⟨l, h1, h2, _⟩
      have := (Base64.decode_iff .url false i l 12 hi).2 ⟨h1, by omega⟩
      rw [hd] at this; cases this
    | some l =>
      have hdec := (Base64.decode_iff .url false i l 12 hi).1 hd
      by_cases h8 : l.length = 8
      · refine .inl ⟨ofLe64 l, ?_, l, hdec.1, h8, rfl⟩
        show Out.ok (if l.length = 8 then some (ofLe64 l) else none) = _
        rw [if_pos h8]
      · refine .inr ⟨?_, ?_⟩
        · show Out.ok (if l.length = 8 then some (ofLe64 l) else none) = _
          rw [if_neg h8]
        · rintro e ⟨l', h1, h2, _⟩
          have := (Base64.decode_iff .url false i l' 12 hi).2 ⟨h1, by omega⟩
          rw [hd] at this; cases this; exact h8 h2

theorem items_seg (c : UInt8) (l : Bytes) (hc : c ≠ 44) :
    items (c :: l) = (c :: l).takeWhile (· != 44) :: items ((c :: l).dropWhile (· != 44)) := by
  induction l generalizing c with
  | nil => simp [items, hc]
  | cons d l ih =>
    have hcb : (c != 44) = true := by simpa using hc
    rw [items.eq_def]
    dsimp only
    rw [if_neg hc]
    by_cases hd : d = 44
    · rw [if_pos hd]
      subst hd
      rw [List.takeWhile_cons, if_pos hcb, List.dropWhile_cons, if_pos hcb]
      simp
    · rw [if_neg hd]
      have := ih d hd
      rw [this]
      dsimp only
      rw [List.takeWhile_cons (a := c), if_pos hcb, List.dropWhile_cons (x := c), if_pos hcb]

theorem incValues_spec : ∀ (fuel : Nat) (l : Bytes), l.length < fuel → l.length ≤ intMax →
    ∃ out, incValues fuel l = .ok out ∧ Listed (items l) out := by
  intro fuel
  induction fuel with
  | zero => intro l h; omega
  | succ fuel ih =>
    intro l hf hi
    cases l with
    | nil => exact ⟨[], rfl, .nil⟩
    | cons c l =>
      simp only [List.length_cons] at hf hi
      rw [incValues]
      by_cases hc : c = 44
      · rw [if_pos hc]
        obtain ⟨out, h1, h2⟩ := ih l (by omega) (by omega)
        refine ⟨out, h1, ?_⟩
        rw [items.eq_def]; dsimp only; rw [if_pos hc]; exact h2
      · rw [if_neg hc, items_seg c l hc]
        have hlt : ((c :: l).takeWhile (· != 44)).length ≤ intMax := by
          have := (List.takeWhile_sublist (· != 44) (l := c :: l)).length_le
          simp only [List.length_cons] at this; omega
        have hdl : ((c :: l).dropWhile (· != 44)).length ≤ l.length := by
          have hcb : (c != 44) = true := by simpa using hc
          rw [List.dropWhile_cons, if_pos hcb]
          exact (List.dropWhile_sublist (· != 44) (l := l)).length_le
        obtain ⟨out, h1, h2⟩ := ih ((c :: l).dropWhile (· != 44)) (by omega) (by omega)
        rcases incValue_spec _ hlt with ⟨e, h3, h4⟩ | ⟨h3, h4⟩
        · exact ⟨e :: out, by rw [h3, h1]; rfl, .take h4 h2⟩
        · exact ⟨out, by rw [h3, h1]; rfl, .skip h4 h2⟩

/-! ### The whole query -/

open Verif.Query (amp desc)

/-- What a lookup from a position finds: the first part with the key, and where it
is. -/
theorem valueLoop_pos (key : Bytes) (hk : (0 : UInt8) ∉ key) (hne : key ≠ []) :
    ∀ (fuel : Nat) (pre r : Bytes), r.length < fuel →
      (Query.valueLoop (pre ++ r) key fuel pre.length = none ∧
        (Query.Spec.parts r).filter (fun s => Query.Spec.sameKey key (Query.Spec.keyOf s)) = []) ∨
      ∃ a s t, (r = a ++ s ∧ t = [[]] ∨ ∃ t', r = a ++ s ++ amp :: t' ∧ t = Query.Spec.parts t') ∧ amp ∉ s ∧
        Query.Spec.sameKey key (Query.Spec.keyOf s) = true ∧
        (Query.Spec.parts r).filter (fun s => Query.Spec.sameKey key (Query.Spec.keyOf s)) =
          s :: t.filter (fun s => Query.Spec.sameKey key (Query.Spec.keyOf s)) ∧
        Query.valueLoop (pre ++ r) key fuel pre.length =
          some ((desc s).value.map (pre.length + a.length + ·), (desc s).valueLen) := by
  have hnil : Query.Spec.sameKey key (Query.Spec.keyOf []) = false := by
    cases key with
    | nil => exact absurd rfl hne
    | cons a t => simp [Query.Spec.sameKey, Query.Spec.keyOf]
  intro fuel
  induction fuel with
  | zero => intro pre r h; omega
  | succ fuel ih =>
    intro pre r hf
    rw [Query.valueLoop]
    by_cases hr : r = []
    · subst hr
      rw [if_neg (by simp)]
      exact .inl ⟨rfl, by simp [Query.Spec.parts, hnil]⟩
    · have hlt : pre.length < (pre ++ r).length := by
        have := List.length_pos_iff.2 hr
        simp only [List.length_append]; omega
      rw [if_pos hlt, List.drop_left, Query.nthKeyValue, Query.nth_one r hr]
      dsimp only
      rcases Query.shape r with h | ⟨s, t, rfl, h⟩
      · rw [Query.pairAt_single r h, Query.nextPos_desc, Query.parts_single r h]
        have hm := Query.match_iff key pre r [] hk
        rw [List.append_nil] at hm
        by_cases hs : Query.Spec.sameKey key (Query.Spec.keyOf r) = true
        · rw [if_pos (hm.2 hs)]
          refine .inr ⟨[], r, [[]], .inl ⟨rfl, rfl⟩, h, hs, ?_, ?_⟩
          · simp [hs, hnil]
          · simp
        · rw [if_neg (fun x => hs (hm.1 x))]
          refine .inl ⟨?_, by simp [hs]⟩
          cases fuel with
          | zero => rfl
          | succ f => rw [Query.valueLoop, if_neg (by simp only [List.length_append]; omega)]
      · rw [Query.pairAt_append s t h, Query.nextPos_desc, Query.parts_append s t h]
        have hm := Query.match_iff key pre s (amp :: t) hk
        rw [List.append_assoc] at hm
        by_cases hs : Query.Spec.sameKey key (Query.Spec.keyOf s) = true
        · rw [if_pos (hm.2 hs)]
          refine .inr ⟨[], s, Query.Spec.parts t, .inr ⟨t, rfl, rfl⟩, h, hs, ?_, ?_⟩
          · simp [hs]
          · simp
        · rw [if_neg (fun x => hs (hm.1 x))]
          have hq : pre ++ (s ++ amp :: t) = (pre ++ s ++ [amp]) ++ t := by simp
          have hp : pre.length + (s.length + 1) = (pre ++ s ++ [amp]).length := by simp
          rw [hq, hp]
          have hf' : t.length < fuel := by
            simp only [List.length_append, List.length_cons] at hf; omega
          rcases ih (pre ++ s ++ [amp]) t hf' with ⟨i1, i2⟩ | ⟨a, s', t', i0, i1, i2, i3, i4⟩
          · refine .inl ⟨i1, ?_⟩
            rw [List.filter_cons, if_neg hs]; exact i2
          · refine .inr ⟨s ++ amp :: a, s', t', ?_, i1, i2, ?_, ?_⟩
            · rcases i0 with ⟨rfl, j⟩ | ⟨t'', rfl, j⟩
              · exact .inl ⟨by simp, j⟩
              · exact .inr ⟨t'', by simp, j⟩
            · rw [List.filter_cons, if_neg hs]; exact i3
            · rw [i4]
              have : (pre ++ s ++ [amp]).length + a.length = pre.length + (s ++ amp :: a).length := by
                simp only [List.length_append, List.length_cons, List.length_nil]; omega
              rw [this]

/-- The parts of a query with the key. -/
def values (q : Bytes) : List Bytes :=
  (Query.Spec.parts q).filter fun s => Query.Spec.sameKey incKey (Query.Spec.keyOf s)

/-- The items of a part. -/
def itemsOf (s : Bytes) : List Bytes := items ((Query.Spec.valueOf s).getD [])

theorem desc_some (s : Bytes) (v : Bytes) (h : Query.Spec.valueOf s = some v) :
    ∃ p, (desc s).value = some p ∧ p + (desc s).valueLen = s.length ∧ s.drop p = v ∧ p ≤ s.length := by
  have hd := Query.desc_value [] s []
  have hn := Query.nextPos_desc s
  simp only [List.nil_append, List.append_nil, List.length_nil, Nat.zero_add] at hd
  unfold Query.valueBytes at hd
  cases hv : (desc s).value with
  | none => rw [hv] at hd; simp only [Option.map_none] at hd; rw [h] at hd; cases hd
  | some p =>
    unfold Query.nextPos at hn
    rw [hv] at hn hd
    dsimp only at hn
    rw [h] at hd
    simp only [Option.map_some, Option.some.injEq] at hd
    refine ⟨p, rfl, hn, ?_, by omega⟩
    rw [← hd]
    unfold slice
    rw [List.take_of_length_le (by rw [List.length_drop]; omega)]

theorem incQuery_spec : ∀ (fuel : Nat) (pre r : Bytes), r.length < fuel → r.length ≤ intMax →
    (∀ s ∈ values r, (Query.Spec.valueOf s).isSome = true) →
    ∃ out, incQuery fuel (pre ++ r) pre.length = .ok out ∧ Listed ((values r).flatMap itemsOf) out := by
  have hk0 : (0 : UInt8) ∉ incKey := by decide
  have hkn : incKey ≠ [] := by decide
  intro fuel
  induction fuel with
  | zero => intro pre r h; omega
  | succ fuel ih =>
    intro pre r hf hi hv
    rw [incQuery]
    by_cases hr : r = []
    · subst hr
      rw [if_neg (by simp)]
      refine ⟨[], rfl, ?_⟩
      have : values [] = [] := by decide
      rw [this]; exact .nil
    · have hlt : pre.length < (pre ++ r).length := by
        have := List.length_pos_iff.2 hr
        simp only [List.length_append]; omega
      rw [if_pos hlt, List.drop_left, Query.getValue, if_neg (by decide)]
      rcases valueLoop_pos incKey hk0 hkn (r.length + 1) [] r (by omega) with
        ⟨h1, h2⟩ | ⟨a, s, t, h0, hs, hm, h3, h4⟩
      · simp only [List.nil_append, List.length_nil] at h1
        rw [h1]
        refine ⟨[], rfl, ?_⟩
        have : values r = [] := h2
        rw [this]; exact .nil
      · simp only [List.nil_append, List.length_nil, Nat.zero_add] at h4
        rw [h4]
        have hvr : values r = s :: t.filter (fun s => Query.Spec.sameKey incKey (Query.Spec.keyOf s)) := h3
        have hsome := hv s (by rw [hvr]; exact List.mem_cons_self ..)
        obtain ⟨v, hval⟩ := Option.isSome_iff_exists.1 hsome
        obtain ⟨p, d1, d2, d3, d4⟩ := desc_some s v hval
        rw [d1]
        dsimp only [Option.map_some]
        have hsl : slice (pre ++ r) (pre.length + (a.length + p)) (desc s).valueLen = v := by
          unfold slice
          have hrr : ∃ w, r = a ++ s ++ w := by
            rcases h0 with ⟨e, _⟩ | ⟨t', e, _⟩
            · exact ⟨[], by rw [e]; simp⟩
            · exact ⟨amp :: t', e⟩
          obtain ⟨w, hw⟩ := hrr
          rw [hw, List.drop_append, List.drop_eq_nil_of_le (by omega), List.nil_append,
            List.append_assoc, List.drop_append, List.drop_eq_nil_of_le (by omega), List.nil_append,
            List.drop_append]
          have e1 : pre.length + (a.length + p) - pre.length - a.length = p := by omega
          rw [e1, d3, List.take_append, List.take_of_length_le (by rw [← d3, List.length_drop]; omega)]
          have : (desc s).valueLen - v.length = 0 := by rw [← d3, List.length_drop]; omega
          rw [this, List.take_zero, List.append_nil]
        rw [hsl]
        have hvl : v.length = (desc s).valueLen := by rw [← d3, List.length_drop]; omega
        have hsl2 : s.length ≤ r.length := by
          rcases h0 with ⟨e, _⟩ | ⟨t', e, _⟩ <;> rw [e] <;> simp <;> omega
        obtain ⟨o1, v1, v2⟩ := incValues_spec ((desc s).valueLen + 1) v (by omega) (by omega)
        rw [v1]
        have hit : itemsOf s = items v := by unfold itemsOf; rw [hval]; rfl
        rcases h0 with ⟨e, ht⟩ | ⟨t', e, ht⟩
        · -- the last part
          have hend : incQuery fuel (pre ++ r) (pre.length + (a.length + p) + (desc s).valueLen + 1) = .ok [] := by
            cases fuel with
            | zero => rfl
            | succ f =>
              rw [incQuery, if_neg]
              rw [e]; simp only [List.length_append]; omega
          rw [hend]
          refine ⟨o1, by show Out.ok (o1 ++ []) = _; rw [List.append_nil], ?_⟩
          have : t.filter (fun s => Query.Spec.sameKey incKey (Query.Spec.keyOf s)) = [] := by
            rw [ht]; decide
          rw [hvr, this]
          simp only [List.flatMap_cons, List.flatMap_nil, List.append_nil]
          rw [hit]; exact v2
        · have hq : pre ++ r = (pre ++ a ++ s ++ [amp]) ++ t' := by rw [e]; simp
          have hp : pre.length + (a.length + p) + (desc s).valueLen + 1 = (pre ++ a ++ s ++ [amp]).length := by
            simp only [List.length_append, List.length_cons, List.length_nil]; omega
          rw [hq, hp]
          have htl : t'.length < r.length := by
            rw [e]; simp only [List.length_append, List.length_cons]; omega
          have hvt : values t' = t.filter (fun s => Query.Spec.sameKey incKey (Query.Spec.keyOf s)) := by
            rw [ht]; rfl
          obtain ⟨o2, j1, j2⟩ := ih (pre ++ a ++ s ++ [amp]) t' (by omega) (by omega)
            (fun x hx => hv x (by rw [hvr]; exact List.mem_cons_of_mem _ (by rw [← hvt]; exact hx)))
          rw [j1]
          refine ⟨o1 ++ o2, rfl, ?_⟩
          rw [hvr, ← hvt, List.flatMap_cons, hit]
          exact v2.append j2

/-- C56. For every query in which each `incChanges` has a value, the callback is
called with exactly the ETags that the items of these values stand for, in the
order of the query; other items are skipped. -/
theorem increments_spec (q : Bytes) (hi : q.length ≤ intMax)
    (hv : ∀ s ∈ values q, (Query.Spec.valueOf s).isSome = true) :
    ∃ out, increments q = .ok out ∧ Listed ((values q).flatMap itemsOf) out :=
  incQuery_spec (q.length + 1) [] q (by omega) hi hv

/-- C56. `incChanges` without '=': the distance between a null pointer and the
query is computed (oc_etag.c:180). -/
theorem bare_key_ub : increments (b "incChanges&incChanges=BAAAAAAAAAA") = .ub := by decide +kernel

/-- The ETags 4 and 5 in two parts, an item that is too short, an empty one. -/
example : increments (b "rt=x&incChanges=,BAAAAAAAAAA,AA,&incchanges=BQAAAAAAAAA") = .ok [4, 5] := by
  decide +kernel
example : ∀ s ∈ values (b "rt=x&incChanges=,BAAAAAAAAAA,AA,&incchanges=BQAAAAAAAAA"),
    (Query.Spec.valueOf s).isSome = true := by decide +kernel
example : (values (b "rt=x&incChanges=,BAAAAAAAAAA,AA,&incchanges=BQAAAAAAAAA")).flatMap itemsOf =
    [b "BAAAAAAAAAA", b "AA", b "BQAAAAAAAAA"] := by decide +kernel

end Verif.Etag
