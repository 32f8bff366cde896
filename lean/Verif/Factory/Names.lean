import Verif.Factory.Spec
import Verif.Collection.LinkProps

/-! Decimal names and their order; the search for an unused number. -/

namespace Verif.Factory

open Verif.Rep (Bytes b Val Rep)
open Verif.Ri (slash)
open Verif.Collection (Link lexLt lexLt_iff Before LexLess Ordered)

theorem isDig_iff (c : UInt8) : isDig c = true ↔ IsDigit c := by
  simp only [isDig, IsDigit, Bool.and_eq_true, decide_eq_true_eq]

theorem isSpace_iff (c : UInt8) : isSpace c = true ↔ Spec.Space c := by
  unfold isSpace Spec.Space
  simp only [Bool.or_eq_true, beq_iff_eq, Bool.and_eq_true, decide_eq_true_eq]
  have : c = 32 ↔ c.toNat = 32 := ⟨fun h => by rw [h]; rfl, fun h => UInt8.toNat.inj h⟩
  rw [this]

theorem number_like (s : Bytes) (k : Int) (h : number s = some k) : Spec.NumberLike s := by
  unfold number at h
  dsimp only at h
  split at h
  · cases h
  · rename_i hn
    have hd : (sign (s.dropWhile isSpace)).2 ≠ [] ∧ (sign (s.dropWhile isSpace)).2.all isDig = true := by
      refine ⟨fun h => hn (.inl h), ?_⟩
      cases ha : (sign (s.dropWhile isSpace)).2.all isDig with
      | true => rfl
      | false => exact absurd (.inr ha) hn
    have hall : ∀ c ∈ (sign (s.dropWhile isSpace)).2, IsDigit c := fun c hc =>
      (isDig_iff c).1 (List.all_eq_true.1 hd.2 c hc)
    have hsp : ∀ c ∈ s.takeWhile isSpace, Spec.Space c := fun c hc =>
      (isSpace_iff c).1 (Collection.mem_takeWhile_imp' hc)
    have hs := List.takeWhile_append_dropWhile (p := isSpace) (l := s)
    cases hr : s.dropWhile isSpace with
    | nil => rw [hr] at hd; exact absurd rfl hd.1
    | cons c r =>
      rw [hr] at hd hall hs
      by_cases h1 : c = 45
      · subst h1
        exact ⟨_, [45], r, hs.symm, hsp, .inr (.inr rfl), hd.1, hall⟩
      · by_cases h2 : c = 43
        · subst h2
          exact ⟨_, [43], r, hs.symm, hsp, .inr (.inl rfl), hd.1, hall⟩
        · have e : sign (c :: r) = (false, c :: r) := by simp only [sign, if_neg h1, if_neg h2]
          rw [e] at hd hall
          exact ⟨_, [], c :: r, hs.symm, hsp, .inl rfl, hd.1, hall⟩

theorem number_dec (n : Nat) (h : (n : Int) < longMax) : number (dec n) = some (n : Int) := by
  obtain ⟨c, r, e⟩ : ∃ c r, dec n = c :: r := by
    cases hd : dec n with
    | nil => exact absurd hd (dec_ne_nil n)
    | cons c r => exact ⟨c, r, rfl⟩
  have hall : ∀ x ∈ c :: r, IsDigit x := by rw [← e]; exact dec_digit n
  have hc := hall c (by simp)
  have h0 : isSpace c = false := by
    cases hs : isSpace c with
    | false => rfl
    | true =>
      have := (isSpace_iff c).1 hs
      unfold Spec.Space at this; unfold IsDigit at hc; omega
  have h1 : ¬ c = 45 := fun h => by subst h; exact absurd hc.1 (by decide)
  have h2 : ¬ c = 43 := fun h => by subst h; exact absurd hc.1 (by decide)
  have hv := dec_val n
  rw [e] at hv ⊢
  have ha : (c :: r).all isDig = true := List.all_eq_true.2 fun x hx => (isDig_iff x).2 (hall x hx)
  have ed : (c :: r).dropWhile isSpace = c :: r := by simp [h0]
  have es : sign (c :: r) = (false, c :: r) := by simp only [sign, if_neg h1, if_neg h2]
  unfold number
  dsimp only
  rw [ed, es]
  simp only [hv, ha]
  rw [if_neg (by simp), if_neg Bool.false_ne_true, if_neg (by unfold longMax at *; omega)]

theorem indexOf_shape (coll u : Bytes) (k : Int) (h : indexOf coll u = some k) :
    ∃ s, u = coll ++ 47 :: s ∧ number s = some k := by
  unfold indexOf at h
  split at h
  · cases h
  · split at h
    · cases h
    · rename_i h2
      have h2' : u.take coll.length = coll ∧ u[coll.length]? = some slash :=
        ⟨Classical.byContradiction fun x => h2 (.inl x), Classical.byContradiction fun x => h2 (.inr x)⟩
      refine ⟨u.drop (coll.length + 1), ?_, h⟩
      obtain ⟨hl, hg⟩ := List.getElem?_eq_some_iff.1 h2'.2
      have e := List.take_append_drop coll.length u
      rw [List.drop_eq_getElem_cons hl, hg, h2'.1] at e
      exact e.symm

theorem indexOf_of (coll s : Bytes) (hs : s ≠ []) : indexOf coll (coll ++ 47 :: s) = number s := by
  have hl : 0 < s.length := List.length_pos_iff.2 hs
  unfold indexOf
  rw [if_neg (by simp only [List.length_append, List.length_cons]; omega), if_neg]
  · congr 1
    rw [List.drop_append_of_le_length_add]
  · simp [slash]
where
  List.drop_append_of_le_length_add {l₁ : Bytes} {s : Bytes} : (l₁ ++ 47 :: s).drop (l₁.length + 1) = s := by
    rw [List.drop_append]; simp

/-- A digit text with a first digit that is not 0. -/
def lead (l : Bytes) : Prop := ∃ c r, l = c :: r ∧ 49 ≤ c.toNat

theorem decF_lead : ∀ (f n : Nat), n < f → 1 ≤ n → lead (decF f n)
  | 0, _, h, _ => by omega
  | f + 1, n, h, h1 => by
    rw [decF]
    by_cases h10 : n < 10
    · rw [if_pos h10]; exact ⟨_, [], rfl, by rw [digit_toNat h10]; omega⟩
    · rw [if_neg h10]
      obtain ⟨c, r, e, hc⟩ := decF_lead f (n / 10) (by omega) (by omega)
      rw [e]; exact ⟨c, r ++ _, rfl, hc⟩

theorem dec_lead (n : Nat) (h : 1 ≤ n) : lead (dec n) := decF_lead _ _ (by omega) h

theorem foldl_dec (l : Bytes) : ∀ a, l.foldl (fun a c => 10 * a + (c.toNat - 48)) a = 10 ^ l.length * a + decVal l := by
  induction l with
  | nil => intro a; simp [decVal]
  | cons c l ih =>
    intro a
    simp only [decVal, List.foldl_cons]
    rw [ih, ih (10 * 0 + (c.toNat - 48)), List.length_cons, Nat.pow_succ]
    generalize 10 ^ l.length = p
    generalize c.toNat - 48 = d
    rw [Nat.mul_add, Nat.mul_add, ← Nat.mul_assoc]; omega

theorem decVal_cons (c : UInt8) (l : Bytes) : decVal (c :: l) = 10 ^ l.length * (c.toNat - 48) + decVal l := by
  show l.foldl _ (10 * 0 + (c.toNat - 48)) = _
  rw [foldl_dec]; congr 2; omega

theorem decVal_lt (l : Bytes) (h : ∀ c ∈ l, IsDigit c) : decVal l < 10 ^ l.length := by
  induction l with
  | nil => simp [decVal]
  | cons c l ih =>
    rw [decVal_cons, List.length_cons, Nat.pow_succ]
    have hi := ih fun x hx => h x (by simp [hx])
    have hc := h c (by simp)
    unfold IsDigit at hc
    have : 10 ^ l.length * (c.toNat - 48) ≤ 10 ^ l.length * 9 := Nat.mul_le_mul_left _ (by omega)
    omega

theorem lex_decVal : ∀ u v : Bytes, u.length = v.length → (∀ c ∈ u, IsDigit c) → (∀ c ∈ v, IsDigit c) →
    lexLt u v = true → decVal u < decVal v := by
  intro u
  induction u with
  | nil => intro v _ _ _ h; simp [lexLt] at h
  | cons x r ih =>
    intro v hl hu hv h
    cases v with
    | nil => simp [lexLt] at h
    | cons y s =>
      simp only [List.length_cons, Nat.add_right_cancel_iff] at hl
      rw [decVal_cons, decVal_cons, hl]
      have hx := hu x (by simp)
      have hy := hv y (by simp)
      unfold IsDigit at hx hy
      simp only [lexLt, Bool.or_eq_true, decide_eq_true_eq, Bool.and_eq_true, beq_iff_eq] at h
      rcases h with h | ⟨h, h'⟩
      · have := decVal_lt r fun c hc => hu c (by simp [hc])
        rw [hl] at this
        have e : 10 ^ s.length * (y.toNat - 48) ≥ 10 ^ s.length * (x.toNat - 48 + 1) := Nat.mul_le_mul_left _ (by omega)
        rw [Nat.mul_add] at e
        omega
      · subst h
        have := ih s hl (fun c hc => hu c (by simp [hc])) (fun c hc => hv c (by simp [hc])) h'
        omega

theorem lexLt_append (p u v : Bytes) : lexLt (p ++ u) (p ++ v) = lexLt u v := by
  induction p with
  | nil => rfl
  | cons c p ih => simp [lexLt, ih]

/-- The order of URIs is that of the numbers. -/
theorem name_order (coll : Bytes) (n m : Nat) (hm : 1 ≤ m)
    (h : Before (Spec.name coll n) (Spec.name coll m)) : n < m := by
  unfold Spec.name Before at h
  rw [← dec_val n, ← dec_val m]
  rcases h with h | ⟨hl, h⟩
  · simp only [List.length_append, List.length_cons] at h
    obtain ⟨c, r, e, hc⟩ := dec_lead m hm
    have h1 := decVal_lt (dec n) (dec_digit n)
    rw [e, decVal_cons]
    have hl : (dec m).length = r.length + 1 := by rw [e]; rfl
    have h2 : 10 ^ (dec n).length ≤ 10 ^ r.length := Nat.pow_le_pow_right (by omega) (by omega)
    have h3 : 10 ^ r.length * 1 ≤ 10 ^ r.length * (c.toNat - 48) := Nat.mul_le_mul_left _ (by omega)
    omega
  · rw [← lexLt_iff] at h
    have e : ∀ x : Bytes, coll ++ 47 :: x = (coll ++ [47]) ++ x := fun x => by simp
    rw [e (dec n), e (dec m), lexLt_append] at h
    exact lex_decVal _ _ (by simp only [List.length_append, List.length_cons] at hl; omega) (dec_digit n) (dec_digit m) h

theorem name_inj (coll : Bytes) (n m : Nat) (h : Spec.name coll n = Spec.name coll m) : n = m := by
  unfold Spec.name at h
  have := List.append_cancel_left h
  exact dec_inj (List.cons.inj this).2

theorem before_irrefl' (u v : Bytes) (h : Before u v) : u ≠ v := fun e => Collection.before_irrefl v (e ▸ h)

/-- The loop over links in order, all numbered ones of which are at least `i`. -/
theorem findLoop_spec (coll : Bytes) : ∀ (us : List Bytes) (i : Nat), 1 ≤ i → i + us.length < 4294967295 →
    us.Pairwise Before → (∀ u ∈ us, Spec.Tidy coll u) → (∀ m, Spec.name coll m ∈ us → i ≤ m) →
    i ≤ findLoop coll us i ∧ findLoop coll us i ≤ i + us.length ∧ Spec.name coll (findLoop coll us i) ∉ us ∧
      ∀ j, i ≤ j → j < findLoop coll us i → Spec.name coll j ∈ us := by
  intro us
  induction us with
  | nil => intro i hi _ _ _ _; simp only [findLoop]; refine ⟨Nat.le_refl _, by simp, by simp, fun j _ _ => by omega⟩
  | cons u r ih =>
    intro i hi hlen hp ht hlow
    rw [List.pairwise_cons] at hp
    simp only [List.length_cons] at hlen
    rw [findLoop]
    cases hx : indexOf coll u with
    | none =>
      dsimp only
      obtain ⟨h1, h2, h3, h4⟩ := ih i hi (by omega) hp.2 (fun v hv => ht v (by simp [hv])) (fun m hm => hlow m (by simp [hm]))
      refine ⟨h1, by simp only [List.length_cons]; omega, ?_, fun j ha hb => by simp [h4 j ha hb]⟩
      intro hm
      rcases List.mem_cons.1 hm with hm | hm
      · rw [← hm, Spec.name, indexOf_of _ _ (dec_ne_nil _), number_dec _ (by unfold longMax; omega)] at hx
        cases hx
      · exact h3 hm
    | some k =>
      dsimp only
      obtain ⟨s, hs, hk⟩ := indexOf_shape _ _ _ hx
      obtain ⟨n, hn1, rfl⟩ := ht u (by simp) s hs (number_like _ _ hk)
      have hu : u = Spec.name coll n := hs
      have hin : i ≤ n := hlow n (by simp [hu])
      have hrest : ∀ m, Spec.name coll m ∈ r → n < m := by
        intro m hm
        have hb := hp.1 _ hm
        rw [hu] at hb
        have : 1 ≤ m := Nat.le_trans hi (hlow m (by simp [hm]))
        exact name_order coll n m this hb
      have hkn : k = (n : Int) := by
        by_cases hbig : (n : Int) < longMax
        · rw [number_dec n hbig] at hk; injection hk with hk; exact hk.symm
        · exfalso
          have := number_bound _ _ hk
          have hv := number_val n k hk
          unfold longMax at *
          omega
      subst hkn
      by_cases hne : n = i
      · subst hne
        rw [if_neg (fun h => h rfl), if_neg (by omega)]
        obtain ⟨h1, h2, h3, h4⟩ := ih (n + 1) (by omega) (by omega) hp.2 (fun v hv => ht v (by simp [hv]))
          (fun m hm => hrest m hm)
        refine ⟨by omega, by simp only [List.length_cons]; omega, ?_, ?_⟩
        · intro hm
          rcases List.mem_cons.1 hm with hm | hm
          · have := name_inj _ _ _ (hm.trans hu); omega
          · exact h3 hm
        · intro j ha hb
          by_cases hj : j = n
          · subst hj; simp [hu]
          · simp [h4 j (by omega) hb]
      · rw [if_pos (by omega)]
        refine ⟨Nat.le_refl _, by omega, ?_, fun j ha hb => by omega⟩
        intro hm
        rcases List.mem_cons.1 hm with hm | hm
        · have := name_inj _ _ _ (hm.trans hu); omega
        · have := hrest i hm; omega
where
  number_bound (s : Bytes) (k : Int) (h : number s = some k) : k < longMax := by
    unfold number at h; dsimp only at h
    split at h
    · cases h
    · generalize (if (sign (s.dropWhile isSpace)).1 = true then -(decVal (sign (s.dropWhile isSpace)).2 : Int)
        else (decVal (sign (s.dropWhile isSpace)).2 : Int)) = v at h
      by_cases h2 : v ≥ longMax ∨ v ≤ -longMax - 1
      · rw [if_pos h2] at h; cases h
      · rw [if_neg h2] at h; injection h with h; subst h; omega
  number_val (n : Nat) (k : Int) (h : number (dec n) = some k) : k = n := by
    obtain ⟨c, r, e⟩ : ∃ c r, dec n = c :: r := by
      cases hd : dec n with
      | nil => exact absurd hd (dec_ne_nil n)
      | cons c r => exact ⟨c, r, rfl⟩
    have hall : ∀ x ∈ c :: r, IsDigit x := by rw [← e]; exact dec_digit n
    have hc := hall c (by simp)
    have h0 : isSpace c = false := by
      cases hs : isSpace c with
      | false => rfl
      | true =>
        have := (isSpace_iff c).1 hs
        unfold Spec.Space at this; unfold IsDigit at hc; omega
    have h1 : ¬ c = 45 := fun h => by subst h; exact absurd hc.1 (by decide)
    have h2 : ¬ c = 43 := fun h => by subst h; exact absurd hc.1 (by decide)
    have hv := dec_val n
    rw [e] at hv h
    have ed : (c :: r).dropWhile isSpace = c :: r := by simp [h0]
    have es : sign (c :: r) = (false, c :: r) := by simp only [sign, if_neg h1, if_neg h2]
    unfold number at h
    dsimp only at h
    rw [ed, es] at h
    simp only [hv, Bool.false_eq_true, if_false] at h
    split at h
    · cases h
    · split at h
      · cases h
      · injection h with h; rw [← h]

end Verif.Factory
