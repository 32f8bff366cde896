import Verif.Endpoint.Spec
/-!
Reading the text of an IPv6 address.
-/
namespace Verif.Endpoint

theorem indexOf_none {c : UInt8} : ∀ {s : Bytes}, c ∉ s → indexOf c s = none
  | [], _ => rfl
  | d :: s, h => by
    have h1 : d ≠ c := fun e => h (by simp [e])
    have h2 : c ∉ s := fun e => h (by simp [e])
    simp [indexOf, h1, indexOf_none h2]

theorem indexOf_append {c : UInt8} : ∀ {s : Bytes} (t : Bytes), c ∉ s →
    indexOf c (s ++ c :: t) = some s.length
  | [], t, _ => by simp [indexOf]
  | d :: s, t, h => by
    have h1 : d ≠ c := fun e => h (by simp [e])
    have h2 : c ∉ s := fun e => h (by simp [e])
    simp [indexOf, h1, indexOf_append t h2]

theorem indexOf_lt {c : UInt8} : ∀ {s : Bytes} {i : Nat}, indexOf c s = some i →
    i < s.length ∧ s[i]? = some c ∧ c ∉ s.take i
  | [], i, h => by simp [indexOf] at h
  | d :: s, i, h => by
    unfold indexOf at h
    split at h
    · rename_i e
      cases h
      simp [e]
    · rename_i e
      cases hh : indexOf c s with
      | none => rw [hh] at h; cases h
      | some j =>
        rw [hh] at h
        cases h
        obtain ⟨h1, h2, h3⟩ := indexOf_lt hh
        refine ⟨by simp; omega, by simpa using h2, ?_⟩
        simp only [List.take_succ_cons, List.mem_cons, not_or]
        exact ⟨fun e' => e e'.symm, h3⟩

/-! ### Segments -/

theorem hexDig_eq : ∀ c : UInt8, IsHex c → hexDig c = UInt8.ofNat (hexVal c) ∧ hexVal c < 16 := by
  apply forall_u8
  unfold IsHex
  decide +kernel

theorem nib2 : ∀ x y : Fin 16,
    ((0 : UInt8) ||| UInt8.ofNat x.val) <<< 4 ||| UInt8.ofNat y.val
      = UInt8.ofNat (16 * x.val + y.val) := by
  decide +kernel

theorem nib1 : ∀ x : Fin 16, (0 : UInt8) ||| UInt8.ofNat x.val = UInt8.ofNat x.val := by
  decide +kernel

theorem hexToBin_two {a b : UInt8} (ha : IsHex a) (hb : IsHex b) :
    hexToBin [a, b] 0 = UInt8.ofNat (16 * hexVal a + hexVal b) := by
  obtain ⟨ea, la⟩ := hexDig_eq a ha
  obtain ⟨eb, lb⟩ := hexDig_eq b hb
  simp only [hexToBin, ea, eb]
  exact nib2 ⟨_, la⟩ ⟨_, lb⟩

theorem hexToBin_one {a : UInt8} (ha : IsHex a) : hexToBin [a] 0 = UInt8.ofNat (hexVal a) := by
  obtain ⟨ea, la⟩ := hexDig_eq a ha
  simp only [hexToBin, ea]
  exact nib1 ⟨_, la⟩

theorem segBytes_group {g : Bytes} (h : IsGroup g) : segBytes g = some (groupBytes g) := by
  obtain ⟨h1, h4, hx⟩ := h
  match g, h1, h4, hx with
  | [a], _, _, hx =>
    have ha := hx a (by simp)
    have la := (hexDig_eq a ha).2
    simp only [segBytes, groupBytes, groupVal, List.foldl, hexToBin_one ha]
    rw [show (16 * 0 + hexVal a) / 256 = 0 by omega,
      show (16 * 0 + hexVal a) % 256 = hexVal a by omega]
    rfl
  | [a, b], _, _, hx =>
    have ha := hx a (by simp)
    have hb := hx b (by simp)
    have la := (hexDig_eq a ha).2
    have lb := (hexDig_eq b hb).2
    simp only [segBytes, groupBytes, groupVal, List.foldl, hexToBin_two ha hb]
    rw [show (16 * (16 * 0 + hexVal a) + hexVal b) / 256 = 0 by omega,
      show (16 * (16 * 0 + hexVal a) + hexVal b) % 256 = 16 * hexVal a + hexVal b by omega]
    rfl
  | [a, b, c], _, _, hx =>
    have ha := hx a (by simp)
    have hb := hx b (by simp)
    have hc := hx c (by simp)
    have la := (hexDig_eq a ha).2
    have lb := (hexDig_eq b hb).2
    have lc := (hexDig_eq c hc).2
    simp only [segBytes, groupBytes, groupVal, List.foldl, hexToBin_two hb hc, hexToBin_one ha]
    rw [show (16 * (16 * (16 * 0 + hexVal a) + hexVal b) + hexVal c) / 256 = hexVal a by omega,
      show (16 * (16 * (16 * 0 + hexVal a) + hexVal b) + hexVal c) % 256
        = 16 * hexVal b + hexVal c by omega]
  | [a, b, c, d], _, _, hx =>
    have ha := hx a (by simp)
    have hb := hx b (by simp)
    have hc := hx c (by simp)
    have hd := hx d (by simp)
    have la := (hexDig_eq a ha).2
    have lb := (hexDig_eq b hb).2
    have lc := (hexDig_eq c hc).2
    have ld := (hexDig_eq d hd).2
    simp only [segBytes, groupBytes, groupVal, List.foldl, hexToBin_two ha hb, hexToBin_two hc hd]
    rw [show (16 * (16 * (16 * (16 * 0 + hexVal a) + hexVal b) + hexVal c) + hexVal d) / 256
        = 16 * hexVal a + hexVal b by omega,
      show (16 * (16 * (16 * (16 * 0 + hexVal a) + hexVal b) + hexVal c) + hexVal d) % 256
        = 16 * hexVal c + hexVal d by omega]

theorem hex_ne_colon {c : UInt8} (h : IsHex c) : c ≠ 58 := by
  revert h; revert c
  apply forall_u8
  unfold IsHex
  decide +kernel

theorem group_noColon {g : Bytes} (h : IsGroup g) : 58 ∉ g :=
  fun hm => hex_ne_colon (h.2.2 _ hm) rfl

theorem segBytes_length {g bs : Bytes} (h : segBytes g = some bs) : bs.length = 2 := by
  unfold segBytes at h
  split at h <;> first | (cases h; rfl) | cases h

/-! ### The loop -/

theorem v6Loop_end (s : Bytes) (out : Bytes) (sp : Option Nat) :
    v6Loop s 0 out sp = .ok (some (out, sp)) := by
  rw [v6Loop]; simp

theorem v6Loop_full (s : Bytes) (n : Nat) {out : Bytes} (sp : Option Nat) (h : 15 ≤ out.length) :
    v6Loop s n out sp = .ok (some (out, sp)) := by
  rw [v6Loop, dif_pos (by omega)]

/-- What follows a group: nothing of the address, or a colon of it. -/
def Follow (s : Bytes) (m : Nat) : Prop := m = 0 ∨ (m ≤ s.length ∧ s.head? = some 58)

theorem v6Loop_group {g : Bytes} (hg : IsGroup g) {s : Bytes} {m : Nat} (hf : Follow s m)
    {out : Bytes} (ho : out.length + 2 ≤ 16) (sp : Option Nat) :
    v6Loop (g ++ s) (g.length + m) out sp = v6Loop s m (out ++ groupBytes g) sp := by
  have h1 := hg.1
  have hn := group_noColon hg
  rw [v6Loop, dif_neg (by omega)]
  have hs : ¬ ((g ++ s).take 2 = [58, 58]) := by
    intro e
    cases g with
    | nil => simp at h1
    | cons c g =>
      simp only [List.cons_append, List.take_succ_cons, List.cons.injEq] at e
      exact hn (by simp [e.1])
  rw [if_neg (by rintro ⟨_, h, _⟩; exact hs h)]
  have hq : v6Split (g ++ s) (g.length + m) out.length sp = (g ++ s, g.length + m, sp) := by
    rw [v6Split, if_neg (fun h => hs h.2)]
  have hml : m ≤ s.length := by rcases hf with h | h <;> omega
  simp only [hq]
  rw [if_neg (by simp; omega)]
  have hseg : (indexOf 58 ((g ++ s).take (g.length + m))).getD (g.length + m) = g.length := by
    rw [List.take_length_add_append]
    rcases hf with h | ⟨h2, h3⟩
    · subst h
      rw [List.take_zero, List.append_nil, indexOf_none hn]; rfl
    · cases s with
      | nil => simp at h3
      | cons c s =>
        simp only [List.head?_cons, Option.some.injEq] at h3
        subst h3
        cases m with
        | zero => rw [List.take_zero, List.append_nil, indexOf_none hn]; rfl
        | succ m =>
          rw [List.take_succ_cons, indexOf_append _ hn]; rfl
  simp only [hseg]
  rw [dif_neg (by omega)]
  simp only [List.take_left', List.drop_left', segBytes_group hg]
  rw [if_neg (by omega), show g.length + m - g.length = m by omega]

theorem v6Loop_colon {s : Bytes} {m : Nat} (hm : m ≤ s.length) (hs : m = 0 ∨ s.head? ≠ some 58)
    {out : Bytes} (ho : out.length < 15) (sp : Option Nat) (hr : m = 0 → s.head? ≠ some 58) :
    v6Loop (58 :: s) (m + 1) out sp = v6Loop s m out sp := by
  have hc : s.head? ≠ some 58 := by
    rcases hs with h | h
    · exact hr h
    · exact h
  have hsp : ¬ ((58 :: s).take 2 = [58, 58]) := by
    intro e
    cases s with
    | nil => simp at e
    | cons c s => simp at e; exact hc (by simp [e])
  conv => lhs; rw [v6Loop]
  rw [dif_neg (by omega), if_neg (by rintro ⟨_, h, _⟩; exact hsp h)]
  have hq : v6Split (58 :: s) (m + 1) out.length sp = (58 :: s, m + 1, sp) := by
    rw [v6Split, if_neg (fun h => hsp h.2)]
  simp only [hq]
  rw [if_neg (by simp; omega)]
  simp [indexOf]

theorem v6Loop_split {s : Bytes} {m : Nat} (hm : m ≤ s.length) {out : Bytes}
    (ho : out.length < 15) :
    v6Loop (58 :: 58 :: s) (m + 2) out none = v6Loop s m out (some out.length) := by
  rw [v6Loop, dif_neg (by omega), if_neg (by rintro ⟨_, _, h⟩; omega)]
  have hq : v6Split (58 :: 58 :: s) (m + 2) out.length none = (s, m, some out.length) := by
    rw [v6Split, if_pos (by simp)]; rfl
  simp only [hq]
  rw [if_neg (by omega)]
  by_cases h0 : m = 0
  · subst h0
    simp [indexOf, v6Loop_end]
  · conv =>
      rhs
      rw [v6Loop]
      rw [dif_neg (show ¬ ¬ (out.length < 15 ∧ 0 < m) by omega), if_neg (by simp)]
    have hq' : v6Split s m out.length (some out.length) = (s, m, some out.length) := by
      rw [v6Split, if_neg (by simp)]
    simp only [hq']
    rw [if_neg (show ¬ s.length < m by omega)]

theorem length_groupBytes (g : Bytes) : (groupBytes g).length = 2 := rfl

theorem length_flat (gs : List Bytes) : (gs.flatMap groupBytes).length = 2 * gs.length := by
  induction gs with
  | nil => rfl
  | cons g gs ih => simp [List.flatMap_cons, length_groupBytes, ih]; omega

theorem joinC_head {g : Bytes} {gs : List Bytes} (h : IsGroup g) :
    (joinC (g :: gs)).head? ≠ some 58 ∧ joinC (g :: gs) ≠ [] := by
  have h1 := h.1
  have hx := h.2.2
  cases g with
  | nil => simp at h1
  | cons c g =>
    have := hex_ne_colon (hx c (by simp))
    cases gs <;> simp [joinC, this]

theorem v6Loop_groups : ∀ (gs : List Bytes), (∀ g ∈ gs, IsGroup g) →
    ∀ {s : Bytes} {m : Nat}, Follow s m → ∀ {out : Bytes}, out.length + 2 * gs.length ≤ 16 →
    ∀ sp, v6Loop (joinC gs ++ s) ((joinC gs).length + m) out sp
      = v6Loop s m (out ++ gs.flatMap groupBytes) sp
  | [], _, s, m, _, out, _, sp => by simp [joinC]
  | [g], hg, s, m, hf, out, ho, sp => by
    simp only [joinC, List.flatMap_cons, List.flatMap_nil, List.append_nil]
    exact v6Loop_group (hg g (by simp)) hf (by simp at ho; omega) sp
  | g :: h :: gs, hg, s, m, hf, out, ho, sp => by
    have hh := hg h (by simp)
    have hml : m ≤ s.length := by rcases hf with h | h <;> omega
    have ih := v6Loop_groups (h :: gs) (fun x hx => hg x (by simp [hx])) hf
      (out := out ++ groupBytes g) (by simp [length_groupBytes] at ho ⊢; omega) sp
    have hj := joinC_head (gs := gs) hh
    have hj' : (joinC (h :: gs) ++ s).head? ≠ some 58 := by
      cases hc : joinC (h :: gs) with
      | nil => exact absurd hc hj.2
      | cons c t =>
        have := hj.1
        rw [hc] at this
        simpa using this
    simp only [joinC, List.append_assoc, List.cons_append, List.length_append, List.length_cons]
    rw [show g.length + ((joinC (h :: gs)).length + 1) + m
        = g.length + ((joinC (h :: gs)).length + m + 1) by omega]
    rw [v6Loop_group (hg g (by simp)) (Or.inr ⟨by simp; omega, by simp⟩)
      (by simp at ho; omega) sp]
    rw [v6Loop_colon (by simp; omega) (Or.inr ?_) (by simp [length_groupBytes] at ho ⊢; omega) sp ?_,
      ih]
    · simp [List.flatMap_cons]
    · exact hj' 
    · exact fun _ => hj'

/-! ### The shift -/

theorem v6Shift_spec (l : Bytes) : ∀ (c : Nat) (r1 r2 : Bytes) (k : Nat), r1.length = c →
    v6Shift (l ++ r1 ++ List.replicate (k + 1) 0 ++ r2) l.length c
      (l.length + r1.length + k) = l ++ List.replicate (k + 1) 0 ++ (r1 ++ r2)
  | 0, r1, r2, k, h => by
    have : r1 = [] := List.eq_nil_of_length_eq_zero h
    subst this
    simp [v6Shift]
  | c + 1, r1, r2, k, h => by
    obtain ⟨r, x, rfl⟩ : ∃ r x, r1 = r ++ [x] := by
      rcases List.eq_nil_or_concat r1 with h' | ⟨r, x, h'⟩
      · subst h'; simp at h
      · exact ⟨r, x, by rw [h', List.concat_eq_append]⟩
    have hr : r.length = c := by simpa using h
    have ih := v6Shift_spec l c r (x :: r2) k hr
    rw [v6Shift]
    have e : ((l ++ (r ++ [x]) ++ List.replicate (k + 1) 0 ++ r2).set
        (l.length + (r ++ [x]).length + k)
        ((l ++ (r ++ [x]) ++ List.replicate (k + 1) 0 ++ r2).getD (l.length + c) 0)).set
        (l.length + c) 0
        = l ++ r ++ List.replicate (k + 1) 0 ++ (x :: r2) := by
      have hx : (l ++ (r ++ [x]) ++ List.replicate (k + 1) 0 ++ r2).getD (l.length + c) 0 = x := by
        simp [List.getD_eq_getElem?_getD, hr]
      rw [hx]
      apply List.ext_getElem?
      intro i
      simp only [List.getElem?_set, List.getElem?_append, List.length_append, List.length_replicate,
        List.length_set, List.length_cons, List.length_nil, List.getElem?_replicate, hr]
      grind
    rw [e]
    have hd : l.length + (r ++ [x]).length + k - 1 = l.length + r.length + k := by simp; omega
    rw [hd, ih]
    simp

/-! ### Reading an address -/

theorem parseV6_text {t a : Bytes} (h : IsV6 t a) (s : Bytes) :
    parseV6 (t ++ s) t.length = .ok (some a) := by
  cases h with
  | full gs hg hn =>
    have := v6Loop_groups gs hg (s := s) (m := 0) (Or.inl rfl) (out := []) (by simp; omega) none
    rw [Nat.add_zero] at this
    rw [parseV6, this, v6Loop_end]
    have hz : 16 - (gs.flatMap groupBytes).length = 0 := by rw [length_flat]; omega
    simp only [Out.bind, List.nil_append, hz, List.replicate_zero, List.append_nil]
  | short l r hl hr hn =>
    have h1 := v6Loop_groups l hl (s := 58 :: 58 :: (joinC r ++ s)) (m := (joinC r).length + 2)
      (Or.inr ⟨by simp, by simp⟩) (out := []) (by simp; omega) none
    have h2 : v6Loop (58 :: 58 :: (joinC r ++ s)) ((joinC r).length + 2)
        (l.flatMap groupBytes) none
        = v6Loop (joinC r ++ s) (joinC r).length (l.flatMap groupBytes) (some (2 * l.length)) := by
      rw [v6Loop_split (by simp) (by rw [length_flat]; omega), length_flat]
    have h3 := v6Loop_groups r hr (s := s) (m := 0) (Or.inl rfl) (out := l.flatMap groupBytes)
      (by rw [length_flat]; omega) (some (2 * l.length))
    rw [Nat.add_zero] at h3
    have e : v6Loop (joinC l ++ 58 :: 58 :: joinC r ++ s)
        (joinC l ++ 58 :: 58 :: joinC r).length [] none
        = .ok (some (l.flatMap groupBytes ++ r.flatMap groupBytes, some (2 * l.length))) := by
      rw [List.append_assoc, List.length_append]
      simp only [List.cons_append, List.length_cons, List.nil_append] at h1 ⊢
      rw [h1, h2, h3, v6Loop_end]
    rw [parseV6, e]
    simp only [Out.bind, List.length_append, length_flat]
    obtain ⟨k, hk⟩ : ∃ k, 16 - (2 * l.length + 2 * r.length) = k + 1 :=
      ⟨16 - (2 * l.length + 2 * r.length) - 1, by omega⟩
    have := v6Shift_spec (l.flatMap groupBytes) (2 * r.length) (r.flatMap groupBytes) [] k
      (length_flat r)
    rw [length_flat, length_flat, List.append_nil] at this
    rw [hk, show 16 - 2 * (l.length + r.length) = k + 1 by omega,
      show 2 * l.length + 2 * r.length - 2 * l.length = 2 * r.length by omega]
    rw [show (15 : Nat) = 2 * l.length + 2 * r.length + k by omega, this]
    simp

/-! ### Safety -/

theorem v6Loop_safe : ∀ (n : Nat) (s : Bytes) (out : Bytes) (sp : Option Nat),
    (n = 0 ∨ s[n]? = some 93) → out.length % 2 = 0 → out.length ≤ 16 →
    ∃ r, v6Loop s n out sp = .ok r ∧ ∀ o k, r = some (o, k) →
      o.length ≤ 16 ∧ (k = sp ∨ ∃ j, k = some j ∧ j ≤ o.length) ∧ out.length ≤ o.length := by
  intro n
  induction n using Nat.strongRecOn with
  | _ n ih =>
    intro s out sp hs he ho
    rw [v6Loop]
    by_cases hg : out.length < 15 ∧ 0 < n
    · rw [dif_neg (by omega)]
      have hs' : s[n]? = some 93 := by rcases hs with h | h; · omega
                                       · exact h
      have hlt : n < s.length := by
        rcases Nat.lt_or_ge n s.length with h | h
        · exact h
        · rw [List.getElem?_eq_none h] at hs'; cases hs'
      have h2 : s.take 2 = [58, 58] → 2 ≤ n := by
        intro h
        match n, hg with
        | 1, _ =>
          exfalso
          match s, h with
          | a :: b :: s, h =>
            simp at h hs'
            rw [h.2] at hs'; cases hs'
        | n + 2, _ => omega
      rw [if_neg (by rintro ⟨_, h, h'⟩; have := h2 h; omega)]
      -- the state after a possible split
      obtain ⟨s1, n1, sp1, hq, hn1, hl1, hs1, hsp1⟩ : ∃ s1 n1 sp1,
          v6Split s n out.length sp = (s1, n1, sp1) ∧ n1 ≤ n ∧ n1 < s1.length ∧
          s1[n1]? = some 93 ∧ (sp1 = sp ∨ sp1 = some out.length) := by
        unfold v6Split
        split
        · rename_i hc
          have := h2 hc.2
          refine ⟨_, _, _, rfl, by omega, by simp; omega, ?_, Or.inr rfl⟩
          rw [List.getElem?_drop, show 2 + (n - 2) = n by omega]; exact hs'
        · exact ⟨_, _, _, rfl, by omega, hlt, hs', Or.inl rfl⟩
      simp only [hq]
      rw [if_neg (by omega)]
      split
      · rename_i h0
        obtain ⟨r, e, hr⟩ := ih (n1 - 1) (by omega) (s1.drop 1) out sp1 (by
          by_cases h : n1 = 0
          · left; omega
          · right; rw [List.getElem?_drop, show 1 + (n1 - 1) = n1 by omega]; exact hs1) he ho
        refine ⟨r, e, fun o k h => ?_⟩
        obtain ⟨a, b, c⟩ := hr o k h
        refine ⟨a, ?_, c⟩
        rcases b with b | b
        · rcases hsp1 with h' | h'
          · left; rw [b, h']
          · right; exact ⟨_, by rw [b, h'], c⟩
        · exact Or.inr b
      · rename_i h0
        generalize hseg : (indexOf 58 (s1.take n1)).getD n1 = seg at h0 ⊢
        have hle : seg ≤ n1 := by
          rw [← hseg]
          cases hi : indexOf 58 (s1.take n1) with
          | none => simp
          | some i =>
            have := (indexOf_lt hi).1
            simp at this ⊢; omega
        cases hb : segBytes (s1.take seg) with
        | none => exact ⟨none, rfl, fun o k h => by cases h⟩
        | some bs =>
          simp only
          rw [if_neg (by omega)]
          have hbl := segBytes_length hb
          obtain ⟨r, e, hr⟩ := ih (n1 - seg) (by omega) (s1.drop seg) (out ++ bs) sp1 (by
            by_cases h : n1 - seg = 0
            · left; omega
            · right
              rw [List.getElem?_drop, show seg + (n1 - seg) = n1 by omega]; exact hs1)
              (by simp [hbl]; omega) (by simp [hbl]; omega)
          refine ⟨r, e, fun o k h => ?_⟩
          obtain ⟨a, b, c⟩ := hr o k h
          simp at c
          refine ⟨a, ?_, by omega⟩
          rcases b with b | b
          · rcases hsp1 with h' | h'
            · left; rw [b, h']
            · right; exact ⟨_, by rw [b, h'], by omega⟩
          · exact Or.inr b
    · rw [dif_pos hg]
      exact ⟨_, rfl, fun o k h => by cases h; exact ⟨ho, Or.inl rfl, Nat.le_refl _⟩⟩

theorem length_v6Shift (split : Nat) : ∀ (c dst : Nat) (a : Bytes),
    (v6Shift a split c dst).length = a.length
  | 0, _, _ => rfl
  | c + 1, dst, a => by rw [v6Shift, length_v6Shift split c]; simp

theorem parseV6_safe {s : Bytes} {n : Nat} (h : n = 0 ∨ s[n]? = some 93) :
    ∃ r, parseV6 s n = .ok r ∧ ∀ a, r = some a → a.length = 16 := by
  obtain ⟨r, e, hr⟩ := v6Loop_safe n s [] none h (by simp) (by simp)
  rw [parseV6, e]
  match r, hr with
  | none, _ => exact ⟨none, rfl, fun a h => by cases h⟩
  | some (o, none), hr =>
    have := (hr o none rfl).1
    refine ⟨_, rfl, fun a h => ?_⟩
    cases h
    simp; omega
  | some (o, some k), hr =>
    have := (hr o (some k) rfl).1
    refine ⟨_, rfl, fun a h => ?_⟩
    cases h
    rw [length_v6Shift]
    simp; omega

end Verif.Endpoint
