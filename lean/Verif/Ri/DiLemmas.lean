import Verif.Ri.Lemmas

/-! Lemmas about the selection of a device and of an interface by a query. -/

namespace Verif.Ri

open Verif.Rep (Bytes b)
open Query (amp desc valueBytes)

/-- The parts of a query with a key. -/
def hits (key q : Bytes) : List Bytes :=
  (Query.Spec.parts q).filter fun s => Query.Spec.sameKey key (Query.Spec.keyOf s)

theorem same_nil (key : Bytes) (hne : key ≠ []) : Query.Spec.sameKey key (Query.Spec.keyOf []) = false := by
  cases key with
  | nil => exact absurd rfl hne
  | cons a t => simp [Query.Spec.sameKey, Query.Spec.keyOf]

theorem hits_nil (key : Bytes) (hne : key ≠ []) : hits key [] = [] := by
  simp [hits, Query.Spec.parts, same_nil key hne]

theorem hits_single (key s : Bytes) (h : amp ∉ s) :
    hits key s = if Query.Spec.sameKey key (Query.Spec.keyOf s) then [s] else [] := by
  rw [hits, Query.parts_single s h]
  cases hs : Query.Spec.sameKey key (Query.Spec.keyOf s) <;> simp [hs]

theorem hits_append (key s t : Bytes) (h : amp ∉ s) :
    hits key (s ++ amp :: t) =
      if Query.Spec.sameKey key (Query.Spec.keyOf s) then s :: hits key t else hits key t := by
  rw [hits, Query.parts_append s t h]
  cases hs : Query.Spec.sameKey key (Query.Spec.keyOf s) <;> simp [hs, hits]

theorem hits_amp (key t : Bytes) (hne : key ≠ []) : hits key (amp :: t) = hits key t := by
  have := hits_append key [] t (by simp)
  rw [List.nil_append, same_nil key hne] at this
  simpa using this

/-- The value found and its place: the rest of the query begins behind it. -/
theorem valueLoop_hit (key : Bytes) (hk : (0 : UInt8) ∉ key) (hne : key ≠ []) :
    ∀ (fuel : Nat) (pre r : Bytes), r.length < fuel →
      match Query.valueLoop (pre ++ r) key fuel pre.length with
      | none => hits key r = []
      | some (v, len) => ∃ a s t, r = a ++ s ++ t ∧ hits key r = s :: hits key t ∧
          v = (desc s).value.map (pre.length + a.length + ·) ∧ len = (desc s).valueLen ∧
          s ≠ [] ∧ Query.Spec.sameKey key (Query.Spec.keyOf s) = true := by
  intro fuel
  induction fuel with
  | zero => intro pre r h; omega
  | succ fuel ih =>
    intro pre r hf
    rw [Query.valueLoop]
    by_cases hr : r = []
    · subst hr
      rw [if_neg (by simp)]
      exact hits_nil key hne
    · have hlt : pre.length < (pre ++ r).length := by
        have := List.length_pos_iff.2 hr
        simp only [List.length_append]; omega
      rw [if_pos hlt, List.drop_left, Query.nthKeyValue, Query.nth_one r hr]
      dsimp only
      rcases Query.shape r with h | ⟨s, t, rfl, h⟩
      · rw [Query.pairAt_single r h, Query.nextPos_desc]
        have hm := Query.match_iff key pre r [] hk
        rw [List.append_nil] at hm
        have hl := hits_single key r h
        by_cases hs : Query.Spec.sameKey key (Query.Spec.keyOf r) = true
        · rw [if_pos (hm.2 hs)]
          rw [if_pos hs] at hl
          refine ⟨[], r, [], by simp, ?_, ?_, rfl, hr, hs⟩
          · rw [hl, hits_nil key hne]
          · simp
        · rw [if_neg (fun x => hs (hm.1 x))]
          rw [if_neg hs] at hl
          cases fuel with
          | zero => exact hl
          | succ f =>
            rw [Query.valueLoop, if_neg (by simp only [List.length_append]; omega)]
            exact hl
      · rw [Query.pairAt_append s t h, Query.nextPos_desc]
        have hm := Query.match_iff key pre s (amp :: t) hk
        have hl := hits_append key s t h
        rw [List.append_assoc] at hm
        by_cases hs : Query.Spec.sameKey key (Query.Spec.keyOf s) = true
        · rw [if_pos (hm.2 hs)]
          rw [if_pos hs] at hl
          refine ⟨[], s, amp :: t, by simp, ?_, ?_, rfl, ?_, hs⟩
          · rw [hl, hits_amp key t hne]
          · simp
          · intro e
            rw [e, same_nil key hne] at hs
            exact Bool.noConfusion hs
        · rw [if_neg (fun x => hs (hm.1 x))]
          rw [if_neg hs] at hl
          have hq : pre ++ (s ++ amp :: t) = (pre ++ s ++ [amp]) ++ t := by simp
          have hp : pre.length + (s.length + 1) = (pre ++ s ++ [amp]).length := by simp
          rw [hq, hp]
          have := ih (pre ++ s ++ [amp]) t (by simp only [List.length_append, List.length_cons] at hf; omega)
          revert this
          cases hv : Query.valueLoop (pre ++ s ++ [amp] ++ t) key fuel (pre ++ s ++ [amp]).length with
          | none => intro this; rw [hl]; exact this
          | some x =>
            rintro ⟨a, s', t', e, hh, hv', hl', hne', hsk⟩
            refine ⟨s ++ [amp] ++ a, s', t', by rw [e]; simp, by rw [hl, hh], ?_, hl', hne', hsk⟩
            rw [hv']
            simp only [List.length_append]
            congr 1
            funext x
            omega

theorem getValue_hit (q key : Bytes) (hk : (0 : UInt8) ∉ key) (hne : key ≠ []) (hlen : key.length ≤ 255) :
    match Query.getValue q key with
    | none => hits key q = []
    | some (v, len) => ∃ a s t, q = a ++ s ++ t ∧ hits key q = s :: hits key t ∧
        v = (desc s).value.map (a.length + ·) ∧ len = (desc s).valueLen ∧
        s ≠ [] ∧ Query.Spec.sameKey key (Query.Spec.keyOf s) = true := by
  rw [Query.getValue, if_neg (by simp only [Query.keyMax]; omega)]
  have := valueLoop_hit key hk hne (q.length + 1) [] q (by omega)
  simpa using this

/-- The value of a part and its end. -/
theorem desc_end (s : Bytes) (v : Nat) (h : (desc s).value = some v) :
    v + (desc s).valueLen = s.length ∧ 0 < v ∧ Query.Spec.valueOf s = some (s.drop v) := by
  rw [Query.valueOf_eq]
  unfold desc at h ⊢
  by_cases he : Query.eqs ∈ s
  · rw [if_pos he] at h ⊢
    rw [if_pos he]
    have := Query.takeWhile_length_lt s Query.eqs he
    have hk : (Query.Spec.keyOf s).length < s.length := this
    simp only [Option.some.injEq] at h
    subst h
    refine ⟨?_, by omega, rfl⟩
    show (Query.Spec.keyOf s).length + 1 + (s.length - ((Query.Spec.keyOf s).length + 1)) = s.length
    omega
  · rw [if_neg he] at h
    cases h

theorem desc_none (s : Bytes) (h : (desc s).value = none) : Query.Spec.valueOf s = none := by
  rw [Query.valueOf_eq]
  unfold desc at h
  by_cases he : Query.eqs ∈ s
  · rw [if_pos he] at h
    cases h
  · rw [if_neg he]

theorem di_key : (0 : UInt8) ∉ b "di" ∧ b "di" ≠ [] ∧ (b "di").length ≤ 255 := by decide
theorem if_key : (0 : UInt8) ∉ b "if" ∧ b "if" ≠ [] ∧ (b "if").length ≤ 255 := by decide

/-- The loop over the `di` keys, from a place where `r` is left; `z` tells whether
this is the first round. -/
theorem diLoop_spec (di : Bytes) (hd : di.length = 36) : ∀ (fuel : Nat) (pre r : Bytes), r.length < fuel →
    (∀ s ∈ hits (b "di") r, Query.Spec.valueOf s ≠ none) →
    diLoop di (pre ++ r) fuel pre.length =
      .ok (decide ((pre = [] ∧ r ≠ [] ∧ hits (b "di") r = []) ∨
        ∃ s ∈ hits (b "di") r, Query.Spec.valueOf s = some di)) := by
  intro fuel
  induction fuel with
  | zero => intro pre r h; omega
  | succ fuel ih =>
    intro pre r hf hv
    rw [diLoop]
    by_cases hr : r = []
    · subst hr
      rw [if_neg (by simp)]
      simp [hits_nil _ di_key.2.1]
    · have hlt : pre.length < (pre ++ r).length := by
        have := List.length_pos_iff.2 hr
        simp only [List.length_append]; omega
      rw [if_pos hlt, List.drop_left]
      have hg := getValue_hit r (b "di") di_key.1 di_key.2.1 di_key.2.2
      revert hg
      cases hgv : Query.getValue r (b "di") with
      | none =>
        intro hg
        dsimp only at hg ⊢
        rw [hg]
        cases pre with
        | nil => simp [hr]
        | cons c p => simp
      | some x =>
        obtain ⟨v, len⟩ := x
        rintro ⟨a, s, t, e, hh, hv', hl, hs, hsk⟩
        have hsv : Query.Spec.valueOf s ≠ none := hv s (by rw [hh]; simp)
        cases hd' : (desc s).value with
        | none => exact absurd (desc_none s hd') hsv
        | some o =>
          rw [hd'] at hv'
          subst hv' hl
          obtain ⟨he, ho, hvo⟩ := desc_end s o hd'
          dsimp only [Option.map_some]
          have hbytes : (r.drop (a.length + o)).take (desc s).valueLen = s.drop o := by
            rw [e, List.append_assoc, ← List.drop_drop, List.drop_left, List.drop_append_of_le_length (by omega)]
            rw [List.take_append_of_le_length (by rw [List.length_drop]; omega), List.take_of_length_le]
            rw [List.length_drop]; omega
          rw [hbytes, hh]
          by_cases hc : s.drop o = di
          · have hlen : (desc s).valueLen + 1 = 37 := by
              have := congrArg List.length hc
              rw [List.length_drop] at this
              omega
            rw [if_pos ⟨hlen, hc⟩]
            congr 1
            symm
            rw [decide_eq_true_eq]
            exact Or.inr ⟨s, by simp, by rw [hvo, hc]⟩
          · rw [if_neg (fun x => hc x.2)]
            have hq : pre ++ r = (pre ++ (a ++ s)) ++ t := by rw [e]; simp
            have hp : pre.length + (a.length + o) + (desc s).valueLen = (pre ++ (a ++ s)).length := by
              simp only [List.length_append]; omega
            rw [hq, hp]
            have hslen := List.length_pos_iff.2 hs
            rw [ih (pre ++ (a ++ s)) t (by rw [e] at hf; simp only [List.length_append] at hf; omega)
              (fun x hx => hv x (by rw [hh]; simp [hx]))]
            congr 1
            rw [decide_eq_decide]
            constructor
            · rintro (⟨h1, _⟩ | ⟨x, hx, h2⟩)
              · exfalso
                have := congrArg List.length h1
                simp only [List.length_append, List.length_nil] at this
                omega
              · exact Or.inr ⟨x, by simp [hx], h2⟩
            · rintro (⟨_, _, h1⟩ | ⟨x, hx, h2⟩)
              · cases h1
              · rcases List.mem_cons.1 hx with rfl | hx
                · rw [hvo] at h2
                  injection h2 with h2
                  exact absurd h2 hc
                · exact Or.inr ⟨x, hx, h2⟩

theorem diFilter_spec (di q : Bytes) (hd : di.length = 36) (hv : Spec.DiValued q) :
    ∃ x, diFilter di q = .ok x ∧ (x = true ↔ Spec.selects di q) := by
  unfold diFilter
  by_cases hq : q.length = 0
  · rw [if_pos hq]
    refine ⟨true, rfl, ?_⟩
    have : q = [] := List.length_eq_zero_iff.1 hq
    subst this
    simp only [true_iff]
    exact Or.inl (hits_nil (b "di") di_key.2.1)
  · rw [if_neg hq]
    have := diLoop_spec di hd (q.length + 1) [] q (by omega) hv
    simp only [List.nil_append, List.length_nil] at this
    refine ⟨_, this, ?_⟩
    rw [decide_eq_true_eq]
    have hne : q ≠ [] := fun e => hq (by rw [e]; rfl)
    constructor
    · rintro (⟨_, _, h⟩ | h)
      · exact Or.inl h
      · exact Or.inr h
    · rintro (h | h)
      · exact Or.inl ⟨trivial, hne, h⟩
      · exact Or.inr h

/-! ### Interfaces -/

theorem name_inj (i j : Iface) (h : i.name = j.name) : i = j := by
  cases i <;> cases j <;> first | rfl | (exfalso; revert h; decide)

theorem bit_ne (i : Iface) : i.bit ≠ 0 := by cases i <;> decide

theorem bit_inj (i j : Iface) (h : i.bit = j.bit) : i = j := by
  cases i <;> cases j <;> first | rfl | (exfalso; revert h; decide)

theorem mem_table (i : Iface) : i ∈ ifaceTable := by cases i <;> decide

theorem ifaceMask_name (i : Iface) : ifaceMask i.name = i.bit := by
  unfold ifaceMask
  cases hf : ifaceTable.find? (fun j => j.name == i.name) with
  | none =>
    have := List.find?_eq_none.1 hf i (mem_table i)
    simp at this
  | some j =>
    have := List.find?_some hf
    simp only [beq_iff_eq] at this
    rw [name_inj j i this]

theorem ifaceMask_other (n : Bytes) (h : ∀ i : Iface, n ≠ i.name) : ifaceMask n = 0 := by
  unfold ifaceMask
  cases hf : ifaceTable.find? (fun j => j.name == n) with
  | none => rfl
  | some j =>
    have := List.find?_some hf
    simp only [beq_iff_eq] at this
    exact absurd this.symm (h j)

theorem named_spec (q : Bytes) :
    ifaceQuery q = (match Spec.named q with | some n => ifaceMask n | none => 0) := by
  unfold ifaceQuery Spec.named
  by_cases hq : q.length = 0
  · rw [if_pos hq]
    have : q = [] := List.length_eq_zero_iff.1 hq
    subst this
    rfl
  · rw [if_neg hq]
    have := Query.getValue_spec q (b "if") if_key.1 if_key.2.1 if_key.2.2
    cases hg : Query.getValue q (b "if") with
    | none =>
      rw [hg] at this
      simp only [Option.map_none] at this
      have : Query.Spec.lookup q (b "if") = none := by
        cases hl : Query.Spec.lookup q (b "if") with
        | none => rfl
        | some x => rw [hl] at this; cases this
      rw [this]
      rfl
    | some x =>
      obtain ⟨v, len⟩ := x
      rw [hg] at this
      simp only [Option.map_some] at this
      cases hl : Query.Spec.lookup q (b "if") with
      | none => rw [hl] at this; cases this
      | some s =>
        rw [hl] at this
        simp only [Option.map_some, Option.some.injEq] at this
        cases v with
        | none =>
          simp only [valueBytes, Option.map_none] at this
          simp only [Option.bind_some, ← this]
        | some o =>
          simp only [valueBytes, Option.map_some, Verif.slice] at this
          simp only [Option.bind_some, ← this]

theorem ifaceOf_chosen (q : Req) (r : Res) : Spec.chosen q.query r.dflt (ifaceOf q r) := by
  unfold Spec.chosen
  have hs := named_spec q.query
  cases hn : Spec.named q.query with
  | none =>
    rw [hn] at hs
    have : ifaceOf q r = r.dflt := by unfold ifaceOf; exact if_pos hs
    rw [this]
    exact Or.inr ⟨fun i => by simp, rfl⟩
  | some n =>
    rw [hn] at hs
    by_cases h : ∃ i : Iface, n = i.name
    · obtain ⟨i, rfl⟩ := h
      have hb : ifaceQuery q.query = i.bit := hs.trans (ifaceMask_name i)
      have : ifaceOf q r = i.bit := by
        unfold ifaceOf; rw [if_neg (by rw [hb]; exact bit_ne i), hb]
      rw [this]
      exact Or.inl ⟨i, rfl, rfl⟩
    · have hb : ifaceQuery q.query = 0 := hs.trans (ifaceMask_other n (fun i e => h ⟨i, e⟩))
      have : ifaceOf q r = r.dflt := by unfold ifaceOf; exact if_pos hb
      rw [this]
      exact Or.inr ⟨fun i e => h ⟨i, by injection e⟩, rfl⟩

/-- The interface of a request is unique. -/
theorem chosen_unique (q : Bytes) (d x y : BitVec 32) (hx : Spec.chosen q d x) (hy : Spec.chosen q d y) :
    x = y := by
  rcases hx with ⟨i, hi, rfl⟩ | ⟨hi, rfl⟩ <;> rcases hy with ⟨j, hj, rfl⟩ | ⟨hj, rfl⟩
  · rw [hi] at hj
    injection hj with hj
    rw [name_inj i j hj]
  · exact absurd hi (hj i)
  · exact absurd hj (hi j)
  · rfl

theorem maskAllows_iff (x : BitVec 32) (m : Method) :
    maskAllows x m = true ↔ ∃ i : Iface, x = i.bit ∧ Spec.allows i m := by
  constructor
  · intro h
    unfold maskAllows at h
    by_cases h1 : (x = Iface.ll.bit || x = Iface.s.bit || x = Iface.r.bit || x = Iface.etag.bit) = true
    · rw [if_pos h1] at h
      have hm : m = .get := by simpa using h
      simp only [Bool.or_eq_true, decide_eq_true_eq] at h1
      rcases h1 with ((e | e) | e) | e
      · exact ⟨.ll, e, hm⟩
      · exact ⟨.s, e, hm⟩
      · exact ⟨.r, e, hm⟩
      · exact ⟨.etag, e, hm⟩
    · rw [if_neg h1] at h
      by_cases h2 : x = Iface.w.bit
      · rw [if_pos h2] at h
        exact ⟨.w, h2, by cases m <;> first | (exfalso; revert h; decide) | (intro e; cases e)⟩
      · rw [if_neg h2] at h
        by_cases h3 : x = Iface.create.bit
        · rw [if_pos h3] at h
          exact ⟨.create, h3, by cases m <;> first | (exfalso; revert h; decide) | (intro e; cases e)⟩
        · rw [if_neg h3] at h
          simp only [Bool.or_eq_true, decide_eq_true_eq] at h
          rcases h with ((((e | e) | e) | e) | e) | e
          · exact ⟨.rw, e, trivial⟩
          · exact ⟨.b, e, trivial⟩
          · exact ⟨.baseline, e, trivial⟩
          · exact ⟨.a, e, trivial⟩
          · exact ⟨.startup, e, trivial⟩
          · exact ⟨.revert, e, trivial⟩
  · rintro ⟨i, rfl, h⟩
    cases i <;> cases m <;> first | decide | (exfalso; revert h; unfold Spec.allows; decide)

theorem subset_iff (i : Iface) (x : BitVec 32) : i.bit &&& ~~~ x ≠ 0 ↔ ¬ x &&& i.bit = i.bit := by
  have : i.bit &&& ~~~ x = 0 ↔ x &&& i.bit = i.bit := by
    constructor
    · intro h
      apply BitVec.eq_of_getLsbD_eq
      intro k hk
      have := congrArg (fun y => y.getLsbD k) h
      simp only [BitVec.getLsbD_and, BitVec.getLsbD_not, hk, decide_true, Bool.true_and,
        BitVec.getLsbD_zero] at this
      rw [BitVec.getLsbD_and]
      cases h1 : i.bit.getLsbD k <;> cases h2 : x.getLsbD k <;> simp_all
    · intro h
      apply BitVec.eq_of_getLsbD_eq
      intro k hk
      have := congrArg (fun y => y.getLsbD k) h
      simp only [BitVec.getLsbD_and] at this
      simp only [BitVec.getLsbD_and, BitVec.getLsbD_not, hk, decide_true, Bool.true_and,
        BitVec.getLsbD_zero]
      cases h1 : i.bit.getLsbD k <;> cases h2 : x.getLsbD k <;> simp_all
  rw [ne_eq, this]

theorem badIface_iff (q : Req) (r : Res) :
    (decide (ifaceOf q r &&& ~~~ r.ifaces ≠ 0) || !maskAllows (ifaceOf q r) q.method) = true ↔
      ¬ ∃ j : Iface, ifaceOf q r = j.bit ∧ r.ifaces &&& j.bit = j.bit ∧ Spec.allows j q.method := by
  rw [Bool.or_eq_true, decide_eq_true_eq, Bool.not_eq_true']
  constructor
  · rintro (h | h) ⟨j, hj, hs, ha⟩
    · rw [hj] at h
      exact (subset_iff j r.ifaces).1 h hs
    · rw [(maskAllows_iff _ _).2 ⟨j, hj, ha⟩] at h
      cases h
  · intro h
    cases hm : maskAllows (ifaceOf q r) q.method with
    | false => exact Or.inr rfl
    | true =>
      obtain ⟨j, hj, ha⟩ := (maskAllows_iff _ _).1 hm
      left
      rw [hj]
      rw [subset_iff]
      intro hs
      exact h ⟨j, hj, hs, ha⟩

theorem cf_iff (cf : Nat) : cfSupported cf = true ↔ Spec.readable cf := by
  unfold cfSupported Spec.readable undef cbor ocfCbor json tdJson
  simp only [Bool.or_eq_true, beq_iff_eq, List.mem_cons, List.not_mem_nil, or_false]
  omega

end Verif.Ri
