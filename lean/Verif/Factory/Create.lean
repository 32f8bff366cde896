import Verif.Factory.Lemmas
import Verif.Ri.DiLemmas

/-! What a request to create does. -/

namespace Verif.Factory

open Verif.Rep (Bytes b Val Rep)
open Verif.Ri (slash Iface ifaceMask)
open Verif.Collection (Link Before Ordered)

/-! ### The payload -/

theorem or_ne_zero (a c : BitVec 32) : a ||| c ≠ 0 ↔ a ≠ 0 ∨ c ≠ 0 := by
  have : a ||| c = 0 ↔ a = 0 ∧ c = 0 := BitVec.or_eq_zero_iff
  rw [ne_eq, this]
  constructor
  · intro h
    by_cases ha : a = 0
    · exact .inr fun hc => h ⟨ha, hc⟩
    · exact .inl ha
  · rintro (h | h) ⟨h1, h2⟩
    · exact h h1
    · exact h h2

theorem bit_and (i j : Iface) : i.bit &&& j.bit ≠ 0 ↔ i = j := by
  cases i <;> cases j <;> decide

theorem mask_cases (s : Bytes) : (∃ i : Iface, s = i.name ∧ ifaceMask s = i.bit) ∨ ((∀ i : Iface, s ≠ i.name) ∧ ifaceMask s = 0) := by
  by_cases h : ∃ i : Iface, s = i.name
  · obtain ⟨i, rfl⟩ := h
    exact .inl ⟨i, rfl, Ri.ifaceMask_name i⟩
  · have h' : ∀ i : Iface, s ≠ i.name := fun i e => h ⟨i, e⟩
    exact .inr ⟨h', Ri.ifaceMask_other s h'⟩

theorem mask_bit (s : Bytes) (i : Iface) : ifaceMask s &&& i.bit ≠ 0 ↔ s = i.name := by
  rcases mask_cases s with ⟨j, rfl, e⟩ | ⟨h, e⟩
  · rw [e, bit_and]
    exact ⟨fun h => by rw [h], fun h => Ri.name_inj _ _ h⟩
  · rw [e]
    constructor
    · intro h; exact absurd (BitVec.zero_and ..) h
    · intro h'; exact absurd h' (h i)

theorem maskOf_bit (l : List Bytes) (i : Iface) : ∀ m, maskOf m l &&& i.bit ≠ 0 ↔ m &&& i.bit ≠ 0 ∨ i.name ∈ l := by
  induction l with
  | nil => intro m; simp [maskOf]
  | cons s l ih =>
    intro m
    show maskOf (m ||| ifaceMask s) l &&& i.bit ≠ 0 ↔ _
    rw [ih, BitVec.and_or_distrib_right, or_ne_zero, mask_bit, List.mem_cons, or_assoc]
    have : s = i.name ↔ i.name = s := ⟨Eq.symm, Eq.symm⟩
    rw [this]

/-- A mask of interfaces: not empty only if it has a bit. -/
def Bits (m : BitVec 32) : Prop := m ≠ 0 → ∃ i : Iface, m &&& i.bit ≠ 0

theorem maskOf_bits (l : List Bytes) : ∀ m, Bits m → Bits (maskOf m l) := by
  induction l with
  | nil => intro m h; exact h
  | cons s l ih =>
    intro m h
    show Bits (maskOf (m ||| ifaceMask s) l)
    apply ih
    intro hne
    rcases (or_ne_zero _ _).1 hne with h1 | h1
    · obtain ⟨i, hi⟩ := h h1
      exact ⟨i, by rw [BitVec.and_or_distrib_right, or_ne_zero]; exact .inl hi⟩
    · rcases mask_cases s with ⟨j, rfl, e⟩ | ⟨_, e⟩
      · exact ⟨j, by rw [BitVec.and_or_distrib_right, or_ne_zero]; exact .inr ((mask_bit _ _).2 rfl)⟩
      · exact absurd e h1

theorem getLast?_cons' {α : Type} (a : α) (l : List α) : (a :: l).getLast? = l.getLast?.or (some a) := by
  rw [List.getLast?_cons]; cases l.getLast? <;> rfl

theorem last_cons {α β : Type} (f : α → Option β) (x : α) (l : List α) :
    ((x :: l).filterMap f).getLast? = ((l.filterMap f).getLast?).or (f x) := by
  rw [List.filterMap_cons]
  cases f x with
  | none => simp
  | some y => exact getLast?_cons' _ _

theorem types_cons (x : Bytes × Val) (l : Rep) : Spec.types (x :: l) = (Spec.types l).or (Spec.typesOf x) :=
  last_cons _ _ _

theorem body_cons (x : Bytes × Val) (l : Rep) : Spec.body (x :: l) = (Spec.body l).or (Spec.bodyOf x) :=
  last_cons _ _ _

theorem strings_cons (x : Bytes × Val) (l : Rep) : Spec.strings (x :: l) = (Spec.stringOf x).toList ++ Spec.strings l := by
  unfold Spec.strings
  rw [List.filterMap_cons]
  cases Spec.stringOf x <;> rfl

theorem names_cons (x : Bytes × Val) (l : Rep) (i : Iface) :
    Spec.Names (x :: l) i ↔ (x.1 ≠ b "rt" ∧ ∃ s, x.2 = .strs s ∧ i.name ∈ s) ∨ Spec.Names l i := by
  unfold Spec.Names
  constructor
  · rintro ⟨y, hy, h⟩
    rcases List.mem_cons.1 hy with rfl | hy
    · exact .inl h
    · exact .inr ⟨y, hy, h⟩
  · rintro (h | ⟨y, hy, h⟩)
    · exact ⟨x, by simp, h⟩
    · exact ⟨y, by simp [hy], h⟩

/-- The payload is read as the specification says. -/
theorem parse_acc : ∀ (rep : Rep) (p : Parsed), Bits p.ifaces →
    (rep.foldl parse1 p).rt = (Spec.types rep).or p.rt ∧
    (rep.foldl parse1 p).payload = (match Spec.body rep with | some o => objOf o | none => p.payload) ∧
    (rep.foldl parse1 p).params = p.params ++ Spec.strings rep ∧
    (∀ i : Iface, (rep.foldl parse1 p).ifaces &&& i.bit ≠ 0 ↔ p.ifaces &&& i.bit ≠ 0 ∨ Spec.Names rep i) ∧
    Bits (rep.foldl parse1 p).ifaces := by
  intro rep
  induction rep with
  | nil => intro p hb; refine ⟨rfl, rfl, by simp [Spec.strings], ?_, hb⟩; intro i; simp [Spec.Names]
  | cons x l ih =>
    intro p hb
    rw [List.foldl_cons]
    have hb' : Bits (parse1 p x).ifaces := by
      unfold parse1
      split
      · split
        · exact hb
        · exact maskOf_bits _ _ hb
      · split
        · exact hb
        · split <;> exact hb
      · exact hb
      · exact hb
    obtain ⟨h1, h2, h3, h4, h5⟩ := ih (parse1 p x) hb'
    have hbm : b "p" ≠ b "rep" := by decide
    obtain ⟨n, v⟩ := x
    refine ⟨?_, ?_, ?_, ?_, h5⟩
    · rw [h1, types_cons, Option.or_assoc]
      congr 1
      cases v with
      | strs s => simp only [parse1, Spec.typesOf]; split <;> rfl
      | obj o =>
        simp only [parse1, Spec.typesOf]
        split
        · rfl
        · split <;> rfl
      | _ => rfl
    · rw [h2, body_cons]
      cases hl : Spec.body l with
      | some o => rfl
      | none =>
        cases v with
        | strs s => simp only [parse1, Spec.bodyOf]; split <;> rfl
        | obj o =>
          simp only [parse1, Spec.bodyOf]
          by_cases hp : n = b "p"
          · have hr : ¬ n = b "rep" := fun h => hbm (hp ▸ h)
            simp only [if_pos hp, if_neg hr]
            split <;> rfl
          · simp only [if_neg hp]
            by_cases hr : n = b "rep"
            · simp only [if_pos hr]; rfl
            · simp only [if_neg hr]; rfl
        | _ => rfl
    · rw [h3, strings_cons, ← List.append_assoc]
      congr 1
      cases v with
      | strs s => simp only [parse1, Spec.stringOf]; split <;> simp
      | obj o =>
        simp only [parse1, Spec.stringOf]
        split
        · simp
        · split <;> simp
      | str s => rfl
      | _ => simp [parse1, Spec.stringOf]
    · intro i
      rw [h4, names_cons, ← or_assoc]
      have : (parse1 p (n, v)).ifaces &&& i.bit ≠ 0 ↔
          p.ifaces &&& i.bit ≠ 0 ∨ (n ≠ b "rt" ∧ ∃ s, v = .strs s ∧ i.name ∈ s) := by
        cases v with
        | strs s =>
          simp only [parse1]
          by_cases hr : n = b "rt"
          · rw [if_pos hr]; exact ⟨.inl, fun h => h.elim id fun h => absurd hr h.1⟩
          · rw [if_neg hr]
            dsimp only
            rw [maskOf_bit]
            constructor
            · rintro (h | h)
              · exact .inl h
              · exact .inr ⟨hr, s, rfl, h⟩
            · rintro (h | ⟨_, s', e', h⟩)
              · exact .inl h
              · injection e' with e'; subst e'; exact .inr h
        | obj o =>
          have : p.ifaces &&& i.bit ≠ 0 ↔ p.ifaces &&& i.bit ≠ 0 ∨ (n ≠ b "rt" ∧ ∃ s, Val.obj o = .strs s ∧ i.name ∈ s) :=
            ⟨.inl, fun h => h.elim id fun ⟨_, s', e', _⟩ => by cases e'⟩
          simp only [parse1]
          split
          · exact this
          · split <;> exact this
        | _ => exact ⟨.inl, fun h => h.elim id fun ⟨_, s', e', _⟩ => by cases e'⟩
      rw [this]

theorem parse_spec (rep : Rep) :
    (parse rep).rt = Spec.types rep ∧
    (parse rep).payload = (match Spec.body rep with | some o => objOf o | none => none) ∧
    (parse rep).params = Spec.strings rep ∧
    (∀ i : Iface, (parse rep).ifaces &&& i.bit ≠ 0 ↔ Spec.Names rep i) ∧
    ((parse rep).ifaces ≠ 0 ↔ ∃ i, Spec.Names rep i) := by
  obtain ⟨h1, h2, h3, h4, h5⟩ := parse_acc rep {} (fun h => absurd rfl h)
  have h4' : ∀ i : Iface, (parse rep).ifaces &&& i.bit ≠ 0 ↔ Spec.Names rep i := by
    intro i
    refine (h4 i).trans ⟨fun h => h.elim (fun h => absurd (BitVec.zero_and ..) h) id, .inr⟩
  refine ⟨by unfold parse; rw [h1]; cases Spec.types rep <;> rfl, h2, by unfold parse; rw [h3]; rfl, h4', ?_⟩
  constructor
  · intro h
    obtain ⟨i, hi⟩ := h5 h
    exact ⟨i, (h4' i).1 hi⟩
  · rintro ⟨i, hi⟩ h
    have := (h4' i).2 hi
    rw [h] at this
    exact this (BitVec.zero_and ..)

/-! ### Outcomes -/

/-- Addresses that are in use were given out. -/
structure Young (w : World) : Prop where
  app : ∀ r ∈ w.app, r.id < w.next
  created : ∀ r ∈ w.created, r.id < w.next
  links : ∀ l ∈ w.links, l.res < w.next

theorem Inv.young {c : Coll} {w : World} (i : Inv c w) : Young w := by
  refine ⟨fun r hr => (i.alt r hr).1, fun r hr => (i.alt r (i.cre r hr).1).1, ?_⟩
  intro l hl
  obtain ⟨r, hr, e, _⟩ := (i.lres l hl).2.2
  rw [← e]; exact (i.alt r hr).1

theorem filter_young (l : List R) (n : Nat) (h : ∀ r ∈ l, r.id < n) : (l.filter fun x => x.id != n) = l :=
  List.filter_eq_self.2 fun x hx => bne_iff_ne.2 (Nat.ne_of_lt (h x hx))

/-- Giving up a resource that has just been made. -/
theorem free_new (c : Coll) (w : World) (y : Young w) (r : R) (hr : r.id = w.next) :
    freeCreated { getInstance c w r with created := (getInstance c w r).created ++ [r] } r = { w with next := w.next + 1 } := by
  unfold freeCreated
  rw [if_pos (List.any_eq_true.2 ⟨r, by simp, by simp⟩)]
  have hl : Collection.hasLink ⟨0, 0, w.links⟩ 0 r.id = false := by
    simp only [Collection.hasLink, beq_self_eq_true, Bool.true_and, List.any_eq_false, beq_iff_eq]
    intro l hl h
    have := y.links l hl
    omega
  have e1 : ((w.created ++ [r]).filter fun x => x.id != r.id) = w.created := by
    rw [List.filter_append, hr, filter_young _ _ y.created]; simp [hr]
  have e2 : ((if inUse c w r.uri then w.app else w.app ++ [r]).filter fun x => x.id != r.id) = w.app := by
    split
    · rw [hr, filter_young _ _ y.app]
    · rw [List.filter_append, hr, filter_young _ _ y.app]; simp [hr]
  unfold dropRes getInstance
  dsimp only
  rw [hl, e1, e2]
  rfl

/-- The world while the new resource is there and nothing else has changed. -/
def made (c : Coll) (w : World) (q : Req) (rt : List Bytes) : World :=
  let w1 := { w with params := w.params ++ (parse q.rep).params }
  let r := newRes c w1 q (parse q.rep) rt
  { getInstance c w1 r with created := w1.created ++ [r] }

theorem find_factory (fs : List (Bytes × Nat)) (t : Bytes) : (findFactory fs t).isNone = true ↔ ¬ ∃ f ∈ fs, f.1 = t := by
  unfold findFactory
  rw [Option.isNone_map, Option.isNone_iff_eq_none, List.find?_eq_none]
  constructor
  · rintro h ⟨f, hf, e⟩; exact h f hf (by simp [e])
  · intro h f hf e; exact h ⟨f, hf, by simpa using e⟩

theorem known_iff (c : Coll) (t : Bytes) : knownType c t = true ↔ t ∈ c.supported ∨ t ∈ c.mandatory := by
  simp [knownType]

/-- The two outcomes of a request. -/
theorem create_cases (c : Coll) (w : World) (y : Young w) (q : Req) :
    (¬ Spec.Accepted c q ∧ ∃ n, w.next ≤ n ∧ create c w q = .ok (none, { w with params := [], next := n })) ∨
    (Spec.Accepted c q ∧ ∃ rt, Spec.types q.rep = some rt ∧
      create c w q = finish q (made c w q rt) (newRes c { w with params := w.params ++ (parse q.rep).params } q (parse q.rep) rt)) := by
  obtain ⟨p1, p2, p3, p4, p5⟩ := parse_spec q.rep
  unfold create
  dsimp only
  have y1 : Young { w with params := w.params ++ (parse q.rep).params } := ⟨y.app, y.created, y.links⟩
  cases hrt : (parse q.rep).rt with
  | none =>
    refine .inl ⟨?_, w.next, Nat.le_refl _, rfl⟩
    rintro ⟨⟨rt, h, _⟩, _⟩
    rw [← p1, hrt] at h; cases h
  | some rt =>
    have ht : Spec.types q.rep = some rt := by rw [← p1, hrt]
    dsimp only
    by_cases hi : (parse q.rep).ifaces = 0
    · rw [if_pos hi]
      exact .inl ⟨fun h => (p5.2 h.2.1) hi, w.next, Nat.le_refl _, rfl⟩
    · rw [if_neg hi]
      by_cases hk : knownType c (typeOf rt) = true
      · rw [hk]
        simp only [Bool.not_true, Bool.false_eq_true, if_false]
        by_cases hf : (findFactory c.factories (typeOf rt)).isNone = true
        · rw [if_pos hf]
          refine .inl ⟨?_, w.next, Nat.le_refl _, rfl⟩
          rintro ⟨⟨rt', h, _, h'⟩, _⟩
          rw [ht] at h; injection h with h; subst h
          exact (find_factory _ _).1 hf h'
        · rw [if_neg hf]
          have hf' : ∃ f ∈ c.factories, f.1 = rt.headD [] :=
            Classical.byContradiction fun h => hf ((find_factory _ _).2 h)
          have hk' := (known_iff _ _).1 hk
          have hn := p5.1 hi
          unfold make
          dsimp only
          by_cases hin : q.inst = true
          · rw [hin]
            simp only [Bool.not_true, Bool.false_eq_true, if_false]
            have fe := free_new c _ y1 (newRes c { w with params := w.params ++ (parse q.rep).params } q (parse q.rep) rt) rfl
            by_cases hcb : q.cbs = true
            · rw [hcb]
              simp only [Bool.not_true, Bool.false_eq_true, if_false]
              have hpay : ∀ o, (parse q.rep).payload = some o ↔ (Spec.body q.rep = some o ∧ o ≠ []) := by
                intro o
                rw [p2]
                cases hb : Spec.body q.rep with
                | none => simp
                | some o' =>
                  dsimp only [objOf]
                  cases o' with
                  | nil =>
                    constructor
                    · intro h; cases h
                    · rintro ⟨h, h'⟩; injection h with h; exact absurd h.symm h'
                  | cons x o' =>
                    constructor
                    · intro h
                      have h : some (x :: o') = some o := h
                      injection h with h; subst h; exact ⟨rfl, by simp⟩
                    · rintro ⟨h, _⟩; exact h
              cases hp : (parse q.rep).payload with
              | none =>
                dsimp only
                refine .inl ⟨?_, w.next + 1, by omega, ?_⟩
                · rintro ⟨_, _, ⟨o, h1, h2, _⟩, _⟩
                  have := (hpay o).2 ⟨h1, h2⟩
                  rw [hp] at this; cases this
                · have := congrArg fail fe
                  exact this
              | some o =>
                dsimp only
                obtain ⟨hb, hne⟩ := (hpay o).1 hp
                by_cases ha : q.accepts o = true
                · rw [if_pos ha]
                  exact .inr ⟨⟨⟨rt, ht, hk', hf'⟩, hn, ⟨o, hb, hne, ha⟩, hin, hcb⟩, rt, ht, rfl⟩
                · rw [if_neg ha]
                  refine .inl ⟨?_, w.next + 1, by omega, congrArg fail fe⟩
                  rintro ⟨_, _, ⟨o', h1, _, h3⟩, _⟩
                  rw [hb] at h1; injection h1 with h1; subst h1; exact ha h3
            · rw [Bool.not_eq_true] at hcb
              rw [hcb]
              simp only [Bool.not_false, if_true]
              exact .inl ⟨fun h => (by have := h.2.2.2.2; rw [hcb] at this; cases this), w.next + 1, by omega, congrArg fail fe⟩
          · rw [Bool.not_eq_true] at hin
            rw [hin]
            simp only [Bool.not_false, if_true]
            exact .inl ⟨fun h => (by have := h.2.2.2.1; rw [hin] at this; cases this), w.next, Nat.le_refl _, rfl⟩
      · rw [Bool.not_eq_true] at hk
        rw [hk]
        simp only [Bool.not_false, if_true]
        refine .inl ⟨?_, w.next, Nat.le_refl _, rfl⟩
        rintro ⟨⟨rt', h, h', _⟩, _⟩
        rw [ht] at h; injection h with h; subst h
        have := (known_iff c (typeOf rt)).2 h'
        rw [hk] at this; cases this

end Verif.Factory
