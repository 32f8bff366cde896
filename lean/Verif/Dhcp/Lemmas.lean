import Verif.Dhcp.Spec
import Verif.EpAddr.Lemmas
/-!
Lemmas for the DHCP options.
-/
namespace Verif.Dhcp

open Verif.EpAddr (Bytes)

theorem hexVal_table : ∀ c : UInt8,
    (hexVal c).all (fun d => decide (Digit c d.toNat ∧ d.toNat < 16 ∧ c ≠ 58)) = true :=
  forall_u8 (P := fun c => (hexVal c).all (fun d => decide (Digit c d.toNat ∧ d.toNat < 16 ∧ c ≠ 58)) = true)
    (by decide +kernel)

theorem digit_table : ∀ c : UInt8, ∀ n : Fin 16, Digit c n.val → hexVal c = some (UInt8.ofNat n.val) :=
  forall_u8 (P := fun c => ∀ n : Fin 16, Digit c n.val → hexVal c = some (UInt8.ofNat n.val))
    (by decide +kernel)

theorem digit_lt {c : UInt8} {d : Nat} (h : Digit c d) : d < 16 := by
  rcases h with h | h
  · obtain ⟨h, _⟩ := List.getElem?_eq_some_iff.1 h; simpa [lower] using h
  · obtain ⟨h, _⟩ := List.getElem?_eq_some_iff.1 h; simpa [upper] using h

theorem digit_val {c : UInt8} {d : Nat} (h : Digit c d) : hexVal c = some (UInt8.ofNat d) :=
  digit_table c ⟨d, digit_lt h⟩ h

theorem val_digit {c d : UInt8} (h : hexVal c = some d) : Digit c d.toNat ∧ d.toNat < 16 ∧ c ≠ 58 := by
  have := hexVal_table c; rw [h] at this; simpa using this

theorem digit_ne {c : UInt8} {d : Nat} (h : Digit c d) : c ≠ 58 := (val_digit (digit_val h)).2.2

theorem join_table : ∀ d e : Fin 16, ((UInt8.ofNat d.val) <<< 4 ||| UInt8.ofNat e.val) =
    UInt8.ofNat (16 * d.val + e.val) := by decide +kernel

theorem join {d e : Nat} (hd : d < 16) (he : e < 16) :
    ((0 ||| UInt8.ofNat d) <<< 4 ||| UInt8.ofNat e) = UInt8.ofNat (16 * d + e) := by
  have := join_table ⟨d, hd⟩ ⟨e, he⟩
  simpa using this

/-- The writing of several values. -/
def puts (buf : Option Bytes) (k : Nat) : List Nat → Option Bytes
  | [] => buf
  | v :: l => puts (put buf k (UInt8.ofNat v)) (k + 1) l

theorem rounds_cons {fuel : Nat} {t : Bytes} {buf : Option Bytes} {k used : Nat} {v : UInt8}
    (ht : t ≠ []) (hl : hexLoop 0 0 t = some (used, v)) (hu : used ≤ t.length) :
    hexRounds (fuel + 1) t buf k = hexRounds fuel (t.drop used) (put buf k v) (k + 1) := by
  cases t with
  | nil => exact absurd rfl ht
  | cons a t => simp only [hexRounds, hexToValue, if_neg ht, Out.bind, hl, if_pos hu]

theorem rounds_none {fuel : Nat} {t : Bytes} {buf : Option Bytes} {k : Nat}
    (ht : t ≠ []) (hl : hexLoop 0 0 t = none) : hexRounds (fuel + 1) t buf k = .ok (none, buf) := by
  cases t with
  | nil => exact absurd rfl ht
  | cons a t => simp only [hexRounds, hexToValue, if_neg ht, Out.bind, hl]

theorem or_zero' (x : UInt8) : 0 ||| x = x := by simp

theorem head_read {t : Bytes} {r : List Nat} (h : Reads t r) :
    t = [] ∨ t.head? = some 58 ∨ ∃ a l d, t = a :: l ∧ Digit a d := by
  cases h with
  | nil => exact .inl rfl
  | empty _ => exact .inr (.inl rfl)
  | last h => exact .inr (.inr ⟨_, _, _, rfl, h⟩)
  | short h _ => exact .inr (.inr ⟨_, _, _, rfl, h⟩)
  | long h _ _ => exact .inr (.inr ⟨_, _, _, rfl, h⟩)
  | pair h _ _ _ => exact .inr (.inr ⟨_, _, _, rfl, h⟩)

theorem rounds_reads {t : Bytes} {r : List Nat} (h : Reads t r) :
    ∀ (fuel : Nat) (buf : Option Bytes) (k : Nat), t.length ≤ fuel →
      hexRounds fuel t buf k = .ok (some (k + r.length), puts buf k r) := by
  induction h with
  | nil => intro fuel buf k _; cases fuel <;> simp [hexRounds, puts]
  | empty _ ih =>
    intro fuel buf k hf
    obtain ⟨fuel, rfl⟩ : ∃ n, fuel = n + 1 := ⟨fuel - 1, by simp at hf; omega⟩
    rw [rounds_cons (used := 1) (v := 0) (by simp) (by simp [hexLoop]) (by simp)]
    simp only [List.length_cons] at hf
    simp only [List.drop_succ_cons, List.drop_zero]
    rw [ih fuel _ _ (by omega)]
    simp [puts]; omega
  | @last a d hd =>
    intro fuel buf k hf
    obtain ⟨fuel, rfl⟩ : ∃ n, fuel = n + 1 := ⟨fuel - 1, by simp at hf; omega⟩
    rw [rounds_cons (used := 1) (v := UInt8.ofNat d) (by simp)
      (by simp [hexLoop, digit_ne hd, digit_val hd]) (by simp)]
    cases fuel <;> simp [hexRounds, puts]
  | @short a d t r hd _ ih =>
    intro fuel buf k hf
    obtain ⟨fuel, rfl⟩ : ∃ n, fuel = n + 1 := ⟨fuel - 1, by simp at hf; omega⟩
    rw [rounds_cons (used := 2) (v := UInt8.ofNat d) (by simp)
      (by simp [hexLoop, digit_ne hd, digit_val hd]) (by simp)]
    simp only [List.length_cons] at hf
    simp only [List.drop_succ_cons, List.drop_zero]
    rw [ih fuel _ _ (by omega)]
    simp [puts]; omega
  | @long a b d e t r hd he _ ih =>
    intro fuel buf k hf
    obtain ⟨fuel, rfl⟩ : ∃ n, fuel = n + 1 := ⟨fuel - 1, by simp at hf; omega⟩
    have hj := join (digit_lt hd) (digit_lt he)
    rw [rounds_cons (used := 3) (v := UInt8.ofNat (16 * d + e)) (by simp)
      (by rw [← hj]; simp [hexLoop, digit_ne hd, digit_val hd, digit_ne he, digit_val he]) (by simp)]
    simp only [List.length_cons] at hf
    simp only [List.drop_succ_cons, List.drop_zero]
    rw [ih fuel _ _ (by omega)]
    simp [puts]; omega
  | @pair a b d e t r hd he hr hh ih =>
    intro fuel buf k hf
    obtain ⟨fuel, rfl⟩ : ∃ n, fuel = n + 1 := ⟨fuel - 1, by simp at hf; omega⟩
    have hj := join (digit_lt hd) (digit_lt he)
    have hl : hexLoop 0 0 (a :: b :: t) = some (2, UInt8.ofNat (16 * d + e)) := by
      rw [← hj]
      rcases head_read hr with rfl | h | ⟨c, l, x, rfl, hc⟩
      · simp [hexLoop, digit_ne hd, digit_val hd, digit_ne he, digit_val he]
      · exact absurd h hh
      · simp [hexLoop, digit_ne hd, digit_val hd, digit_ne he, digit_val he, digit_ne hc, digit_val hc]
    rw [rounds_cons (used := 2) (v := UInt8.ofNat (16 * d + e)) (by simp) hl (by simp)]
    simp only [List.length_cons] at hf
    simp only [List.drop_succ_cons, List.drop_zero]
    rw [ih fuel _ _ (by omega)]
    simp [puts]; omega

/-- Every text is denoted or gives the error. -/
theorem rounds_total : ∀ (n : Nat) (t : Bytes), t.length ≤ n →
    (∃ r, Reads t r) ∨ ∀ (fuel : Nat) (buf : Option Bytes) (k : Nat), t.length ≤ fuel →
      ∃ b, hexRounds fuel t buf k = .ok (none, b) := by
  intro n
  induction n with
  | zero =>
    intro t ht
    have : t = [] := List.length_eq_zero_iff.1 (by omega)
    exact .inl ⟨[], this ▸ .nil⟩
  | succ n ih =>
    intro t ht
    have go : ∀ (used : Nat) (v : UInt8), t ≠ [] → hexLoop 0 0 t = some (used, v) → 0 < used → used ≤ t.length →
        (∀ r, Reads (t.drop used) r → ∃ r, Reads t r) →
        (∃ r, Reads t r) ∨ ∀ (fuel : Nat) (buf : Option Bytes) (k : Nat), t.length ≤ fuel →
          ∃ b, hexRounds fuel t buf k = .ok (none, b) := by
      intro used v hne hl hu hle hread
      rcases ih (t.drop used) (by simp; omega) with ⟨r, hr⟩ | hr
      · exact .inl (hread r hr)
      · refine .inr fun fuel buf k hf => ?_
        obtain ⟨fuel, rfl⟩ : ∃ n, fuel = n + 1 := ⟨fuel - 1, by omega⟩
        rw [rounds_cons hne hl hle]
        exact hr fuel _ _ (by simp; omega)
    have bad : t ≠ [] → hexLoop 0 0 t = none →
        (∃ r, Reads t r) ∨ ∀ (fuel : Nat) (buf : Option Bytes) (k : Nat), t.length ≤ fuel →
          ∃ b, hexRounds fuel t buf k = .ok (none, b) := by
      intro hne hl
      refine .inr fun fuel buf k hf => ?_
      have : 0 < t.length := List.length_pos_iff.2 hne
      obtain ⟨fuel, rfl⟩ : ∃ n, fuel = n + 1 := ⟨fuel - 1, by omega⟩
      exact ⟨buf, rounds_none hne hl⟩
    cases t with
    | nil => exact .inl ⟨[], .nil⟩
    | cons a t =>
      by_cases ha : a = 58
      · subst ha
        exact go 1 0 (by simp) (by simp [hexLoop]) (by omega) (by simp) fun r h => ⟨0 :: r, .empty h⟩
      · cases hva : hexVal a with
        | none => exact bad (by simp) (by simp [hexLoop, ha, hva])
        | some d =>
          have hd := (val_digit hva).1
          cases t with
          | nil => exact .inl ⟨[d.toNat], .last hd⟩
          | cons b t =>
            by_cases hb : b = 58
            · subst hb
              exact go 2 d (by simp) (by simp [hexLoop, ha, hva]) (by omega) (by simp)
                fun r h => ⟨_, .short hd h⟩
            · cases hvb : hexVal b with
              | none => exact bad (by simp) (by simp [hexLoop, ha, hva, hb, hvb])
              | some e =>
                have he := (val_digit hvb).1
                cases t with
                | nil => exact .inl ⟨_, .pair hd he .nil (by simp)⟩
                | cons c t =>
                  by_cases hc : c = 58
                  · subst hc
                    exact go 3 _ (by simp) (by simp [hexLoop, ha, hva, hb, hvb]; rfl) (by omega) (by simp)
                      fun r h => ⟨_, .long hd he h⟩
                  · cases hvc : hexVal c with
                    | none => exact bad (by simp) (by simp [hexLoop, ha, hva, hb, hvb, hc, hvc])
                    | some x =>
                      exact go 2 _ (by simp) (by simp [hexLoop, ha, hva, hb, hvb, hc, hvc]; rfl) (by omega)
                        (by simp) fun r h => ⟨_, .pair hd he h (by simp [hc])⟩

theorem puts_none (k : Nat) (r : List Nat) : puts none k r = none := by
  induction r generalizing k with
  | nil => rfl
  | cons v r ih => simp only [puts, put, Option.map_none]; exact ih _

theorem puts_some (l : Bytes) (k : Nat) (r : List Nat) (h : k ≤ l.length) :
    puts (some l) k r =
      some (l.take k ++ (r.map UInt8.ofNat).take (l.length - k) ++ l.drop (k + r.length)) := by
  induction r generalizing k l with
  | nil => simp [puts]
  | cons v r ih =>
    simp only [puts, put, Option.map_some]
    by_cases hk : k < l.length
    · rw [if_pos hk, ih _ _ (by simp; omega)]
      congr 1
      have e : l.length - k = (l.length - (k + 1)) + 1 := by omega
      rw [e]
      simp only [List.length_set, List.map_cons, List.take_succ_cons, List.length_cons]
      rw [List.take_succ_eq_append_getElem (by simp; omega), List.getElem_set_self,
        List.take_set_of_le (by omega), List.drop_set_of_lt (by omega)]
      simp [Nat.add_assoc, Nat.add_comm 1]
    · rw [if_neg hk]
      have e : k = l.length := by omega
      subst e
      have : ∀ (r : List Nat) (j : Nat), l.length ≤ j → puts (some l) j r = some l := by
        intro r
        induction r with
        | nil => intro j _; rfl
        | cons v r ih => intro j hj; simp only [puts, put, Option.map_some, if_neg (by omega : ¬ j < l.length)]; exact ih _ (by omega)
      rw [this _ _ (by omega)]
      simp

theorem two_digit : ∀ v : UInt8, Digit (lower.getD (v.toNat / 16) 0) (v.toNat / 16) ∧
    Digit (lower.getD (v.toNat % 16) 0) (v.toNat % 16) :=
  forall_u8 (P := fun v => Digit (lower.getD (v.toNat / 16) 0) (v.toNat / 16) ∧
    Digit (lower.getD (v.toNat % 16) 0) (v.toNat % 16)) (by decide +kernel)

theorem one_digit : ∀ v : UInt8, v.toNat < 16 → Digit (lower.getD v.toNat 0) v.toNat :=
  forall_u8 (P := fun v => v.toNat < 16 → Digit (lower.getD v.toNat 0) v.toNat) (by decide +kernel)

theorem reads_brief_end (v : UInt8) : Reads (brief v) [v.toNat] := by
  unfold brief
  by_cases h : v.toNat < 16
  · rw [if_pos h]; exact .last (one_digit v h)
  · rw [if_neg h]
    obtain ⟨h1, h2⟩ := two_digit v
    have e : v.toNat = 16 * (v.toNat / 16) + v.toNat % 16 := by omega
    have := Reads.pair h1 h2 .nil (by simp)
    rw [← e] at this
    exact this

theorem reads_brief_colon (v : UInt8) {t : Bytes} {r : List Nat} (h : Reads t r) :
    Reads (brief v ++ 58 :: t) (v.toNat :: r) := by
  unfold brief
  by_cases hv : v.toNat < 16
  · rw [if_pos hv]; exact .short (one_digit v hv) h
  · rw [if_neg hv]
    obtain ⟨h1, h2⟩ := two_digit v
    have e : v.toNat = 16 * (v.toNat / 16) + v.toNat % 16 := by omega
    have := Reads.long h1 h2 h
    rw [← e] at this
    exact this

theorem reads_isc : ∀ l : List UInt8, Reads (isc l) (l.map (·.toNat))
  | [] => .nil
  | [v] => reads_brief_end v
  | v :: w :: l => reads_brief_colon v (reads_isc (w :: l))

theorem reads_plain : ∀ l : List UInt8, Reads (l.flatMap two) (l.map (·.toNat)) := by
  intro l
  induction l with
  | nil => exact .nil
  | cons v l ih =>
    obtain ⟨h1, h2⟩ := two_digit v
    have e : v.toNat = 16 * (v.toNat / 16) + v.toNat % 16 := by omega
    have hh : (l.flatMap two).head? ≠ some 58 := by
      cases l with
      | nil => simp
      | cons w l =>
        have := digit_ne (two_digit w).1
        simpa [two] using this
    have := Reads.pair h1 h2 ih hh
    rw [← e] at this
    exact this

/-! ### The options -/

/-- Taking the options one after the other. -/
def applies (c : Codes) (f : Found) (os : List Opt) : Found :=
  os.foldl (fun f o => (setOption c f o.code o.data).getD f) f

theorem takes_set {c : Codes} {o : Opt} (h : Takes c o) (f : Found) :
    setOption c f o.code o.data = some ((setOption c f o.code o.data).getD f) := by
  obtain ⟨hk, h1, _⟩ := h
  unfold setOption
  rw [if_neg (by omega)]
  by_cases he : o.code = c.endpoint
  · simp [he]
  · by_cases hf : o.code = c.fingerprint
    · simp only [if_neg he, if_pos hf, Option.getD_some]
    · by_cases hm : o.code = c.md
      · simp only [if_neg he, if_neg hf, if_pos hm, Option.getD_some]
      · exact absurd hk (by simp [he, hf, hm])

theorem set_takes {c : Codes} {f g : Found} {code : UInt8} {d : Bytes} (h : setOption c f code d = some g)
    (hd : d.length ≤ 255) : Takes c ⟨code, d⟩ := by
  unfold setOption at h
  split at h
  · cases h
  · rename_i h0
    refine ⟨?_, by show 1 ≤ d.length; omega, hd⟩
    split at h
    · rename_i e; exact .inl e
    · split at h
      · rename_i e; exact .inr (.inl e)
      · split at h
        · rename_i e; exact .inr (.inr e)
        · cases h

theorem get_drop {l : Bytes} {i : Nat} {a : UInt8} {r : Bytes} (h : l.drop i = a :: r) :
    Out.get l i = .ok a ∧ l.drop (i + 1) = r ∧ i < l.length := by
  have h0 : l[i]? = some a := by
    have := congrArg (·[0]?) h
    simpa [List.getElem?_drop] using this
  refine ⟨by simp [Out.get, h0], ?_, (List.getElem?_eq_some_iff.1 h0).1⟩
  rw [← List.drop_drop, h]; rfl

theorem drop_cons {l : Bytes} {i : Nat} (h : i < l.length) : ∃ a r, l.drop i = a :: r := by
  exact ⟨_, _, List.drop_eq_getElem_cons h⟩

theorem u8_len {n : Nat} (h : n ≤ 255) : (UInt8.ofNat n).toNat = n := by
  simp; omega

/-- A complete option at index `i`. -/
theorem loop_opt {c : Codes} {opts : Bytes} {i : Nat} {o : Opt} {rest : Bytes} (f : Found) (fuel : Nat)
    (h : opts.drop i = o.code :: UInt8.ofNat o.data.length :: (o.data ++ rest)) (ht : Takes c o) :
    parseLoop c opts (fuel + 1) i f =
      parseLoop c opts fuel (i + (o.data.length + 1 + 1)) ((setOption c f o.code o.data).getD f) ∧
    opts.drop (i + (o.data.length + 1 + 1)) = rest := by
  obtain ⟨g0, d0, l0⟩ := get_drop h
  obtain ⟨g1, d1, l1⟩ := get_drop d0
  have hs := u8_len ht.2.2
  have hlen : opts.length = i + 2 + (o.data.length + rest.length) := by
    have := congrArg List.length d1
    simp at this
    omega
  have hdrop : opts.drop (i + (o.data.length + 1 + 1)) = rest := by
    have e : i + (o.data.length + 1 + 1) = (i + 1 + 1) + o.data.length := by omega
    rw [e, ← List.drop_drop, d1]; simp
  refine ⟨?_, hdrop⟩
  have hsl : slice opts (i + 1 + 1) o.data.length = .ok o.data := by
    unfold slice
    rw [if_pos (by omega), d1]
    simp
  rw [parseLoop]
  rw [if_pos (by omega)]
  simp only [g0, Out.bind, parseOption]
  rw [if_neg (by omega)]
  simp only [g1, hs]
  rw [if_neg (by omega)]
  simp only [hsl]
  rw [takes_set ht f]
  rfl

theorem loop_back {c : Codes} {opts : Bytes} : ∀ (os : List Opt) (fuel i : Nat) (f : Found) (tail : Bytes),
    opts.drop i = enc os ++ tail → tail.length ≤ 1 → (∀ o ∈ os, Takes c o) → opts.length ≤ i + fuel →
    parseLoop c opts fuel i f = .ok (some (applies c f os)) := by
  intro os
  induction os with
  | nil =>
    intro fuel i f tail hd ht _ _
    have : opts.length - i ≤ 1 := by
      have := congrArg List.length hd
      simp [enc] at this
      omega
    unfold parseLoop
    rw [if_neg (by omega)]; rfl
  | cons o os ih =>
    intro fuel i f tail hd ht hk hf
    have hd' : opts.drop i = o.code :: UInt8.ofNat o.data.length :: (o.data ++ (enc os ++ tail)) := by
      rw [hd]; simp [enc]
    have hlt := (get_drop hd').2.2
    obtain ⟨fuel, rfl⟩ : ∃ n, fuel = n + 1 := ⟨fuel - 1, by omega⟩
    obtain ⟨h1, h2⟩ := loop_opt f fuel hd' (hk o (by simp))
    rw [h1, ih fuel _ _ tail h2 ht (fun o h => hk o (by simp [h])) (by omega)]
    rfl

theorem loop_forth {c : Codes} {opts : Bytes} : ∀ (fuel i : Nat) (f : Found), opts.length ≤ i + fuel →
    parseLoop c opts fuel i f = .ok none ∨
    ∃ os tail, opts.drop i = enc os ++ tail ∧ tail.length ≤ 1 ∧ ∀ o ∈ os, Takes c o := by
  intro fuel
  induction fuel with
  | zero =>
    intro i f h
    refine .inr ⟨[], opts.drop i, by simp [enc], by simp; omega, by simp⟩
  | succ fuel ih =>
    intro i f h
    by_cases hi : i + 1 < opts.length
    · obtain ⟨code, r0, hd0⟩ := drop_cons (l := opts) (i := i) (by omega)
      obtain ⟨g0, d0, _⟩ := get_drop hd0
      obtain ⟨sz, r1, hd1⟩ := drop_cons (l := opts) (i := i + 1) hi
      obtain ⟨g1, d1, _⟩ := get_drop hd1
      have hr : r0 = sz :: r1 := by rw [← d0, hd1]
      have hl1 : r1.length = opts.length - (i + 2) := by rw [← d1]; simp
      rw [parseLoop, if_pos hi]
      simp only [g0, Out.bind, parseOption]
      rw [if_neg (by omega)]
      simp only [g1]
      by_cases hs : sz.toNat > opts.length - (i + 1) - 1
      · rw [if_pos hs]; exact .inl rfl
      · rw [if_neg hs]
        have hsl : slice opts (i + 1 + 1) sz.toNat = .ok (r1.take sz.toNat) := by
          unfold slice
          rw [if_pos (by omega), d1]
        simp only [hsl]
        cases hset : setOption c f code (r1.take sz.toNat) with
        | none => exact .inl rfl
        | some g =>
          dsimp only
          rcases ih (i + (sz.toNat + 1 + 1)) g (by omega) with h' | ⟨os, tail, hd, ht, hk⟩
          · exact .inl h'
          · right
            have hsz : sz.toNat < 256 := sz.toNat_lt
            have hlen : (r1.take sz.toNat).length = sz.toNat := by simp; omega
            refine ⟨⟨code, r1.take sz.toNat⟩ :: os, tail, ?_, ht, ?_⟩
            · have e : opts.drop (i + (sz.toNat + 1 + 1)) = r1.drop sz.toNat := by
                have e : i + (sz.toNat + 1 + 1) = (i + 1 + 1) + sz.toNat := by omega
                rw [e, ← List.drop_drop, d1]
              rw [e] at hd
              rw [hd0, hr]
              simp only [enc, List.cons_append, hlen, List.append_assoc, ← hd, List.take_append_drop]
              simp
            · intro o ho
              rcases List.mem_cons.1 ho with rfl | ho
              · exact set_takes hset (by omega)
              · exact hk o ho
    · refine .inr ⟨[], opts.drop i, by simp [enc], by simp; omega, by simp⟩

theorem last_snoc (code : UInt8) (os : List Opt) (o : Opt) :
    lastOf code (os ++ [o]) = if o.code = code then some o.data else lastOf code os := by
  unfold lastOf
  rw [List.filter_append]
  by_cases h : o.code = code
  · simp [h]
  · simp [h]

theorem applies_meant {c : Codes} (hc : Distinct c) : ∀ os : List Opt, (∀ o ∈ os, Takes c o) →
    Meant c os (applies c {} os) := by
  intro os
  obtain ⟨h1, h2, h3⟩ := hc
  obtain ⟨l, rfl⟩ : ∃ l, os = l.reverse := ⟨os.reverse, by simp⟩
  induction l with
  | nil => intro _; exact ⟨rfl, rfl, rfl⟩
  | cons o l ih =>
    intro hk
    rw [List.reverse_cons] at hk ⊢
    generalize l.reverse = os at ih hk ⊢
    obtain ⟨i1, i2, i3⟩ := ih fun o h => hk o (List.mem_append.2 (.inl h))
    obtain ⟨hcode, hl, _⟩ := hk o (by simp)
    unfold applies at i1 i2 i3 ⊢
    rw [List.foldl_append]
    simp only [List.foldl_cons, List.foldl_nil]
    have hn : ¬ o.data.length = 0 := by omega
    have hne : ¬ o.data = [] := fun h => hn (by rw [h]; rfl)
    generalize List.foldl (fun f o => (setOption c f o.code o.data).getD f) {} os = g at i1 i2 i3 ⊢
    have h1' := h1.symm
    have h2' := h2.symm
    have h3' := h3.symm
    rcases hcode with e | e | e
    · refine ⟨?_, ?_, ?_⟩ <;> rw [last_snoc] <;> simp [setOption, hne, e, i1, i2, i3, h1, h2, h3, h1', h2', h3']
    · refine ⟨?_, ?_, ?_⟩ <;> rw [last_snoc] <;> simp [setOption, hne, e, i1, i2, i3, h1, h2, h3, h1', h2', h3']
    · refine ⟨?_, ?_, ?_⟩ <;> rw [last_snoc] <;> simp [setOption, hne, e, i1, i2, i3, h1, h2, h3, h1', h2', h3']

theorem meant_unique {c : Codes} {os : List Opt} {f g : Found} (hf : Meant c os f) (hg : Meant c os g) : f = g := by
  cases f; cases g
  obtain ⟨a, b, d⟩ := hf
  obtain ⟨a', b', d'⟩ := hg
  simp only at a b d a' b' d'
  simp [a, b, d, a', b', d']

/-! ### The addresses -/

theorem isSelected_eq {lim : Nat} {x : Ctx} (h : EpAddr.Inv lim x.eps) (u : Bytes) :
    EpAddr.isSelected x.eps u = .ok (decide (current x = some u)) := by
  unfold EpAddr.isSelected EpAddr.selected current
  cases hs : x.eps.sel with
  | none =>
    have : x.eps.items = [] := h.none_iff.1 hs
    simp [Out.bind, EpAddr.servers, this]
  | some p =>
    obtain ⟨k, i, hk, e, hc⟩ := EpAddr.sel_pos h hs
    have hf : x.eps.items.find? (fun i => i.id == p) = some i := by
      have hm := List.mem_of_getElem? hk
      cases hx : x.eps.items.find? (fun i => i.id == p) with
      | none => exact absurd (List.find?_eq_none.1 hx i hm) (by simp [e])
      | some j =>
        have hj := List.find?_some hx
        have hjm := List.mem_of_find?_eq_some hx
        obtain ⟨k', hk'⟩ := List.getElem?_of_mem hjm
        have : k' = k := EpAddr.id_inj h hk' hk (by simpa [e] using hj)
        subst this
        rw [hk] at hk'
        exact hk'.symm
    simp only [hf, Out.bind, hc]
    simp [EpAddr.servers, hk]

theorem reinit_eq {lim : Nat} (mem : Bool) {s : EpAddr.Addrs} (u : Bytes) :
    ∃ r s', EpAddr.reinit lim mem s ⟨u, .name none⟩ = .ok (r, s') ∧ EpAddr.Inv lim s' ∧
      EpAddr.servers s' = ⟨if EpAddr.Fits lim u ∧ mem = true then [(u, .name none)] else [], 0⟩ := by
  unfold EpAddr.reinit EpAddr.init
  dsimp only
  have hinv : ∀ n c, EpAddr.Inv lim { items := [], sel := none, next := n, calls := c } :=
    fun n c => ⟨by simp, by simp, by simp, by simp, by simp, by simp⟩
  by_cases h0 : u.length > 0
  · rw [if_pos h0]
    rw [EpAddr.allocAdd_eq (EpAddr.inv_drop (lim := lim) (hinv _ _))]
    by_cases hf : mem = true ∧ EpAddr.Fits lim u
    · rw [if_pos hf]
      refine ⟨_, _, rfl, ?_, ?_⟩
      · refine ⟨by simp, by simp [EpAddr.deinit], by simp, ?_, by simp [EpAddr.deinit], ?_⟩
        · simpa [EpAddr.deinit] using hf.2
        · simp [EpAddr.deinit]
      · simp [EpAddr.servers, hf.1, hf.2, EpAddr.deinit]
    · rw [if_neg hf]
      refine ⟨_, _, rfl, hinv _ _, ?_⟩
      have : ¬ (EpAddr.Fits lim u ∧ mem = true) := fun h => hf ⟨h.2, h.1⟩
      rw [if_neg this]; rfl
  · rw [if_neg h0]
    refine ⟨_, _, rfl, hinv _ _, ?_⟩
    have : ¬ EpAddr.Fits lim u := by simp [EpAddr.Fits]; omega
    simp [EpAddr.servers, EpAddr.deinit, this]

end Verif.Dhcp
