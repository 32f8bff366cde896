import Verif.Json.Spec

/-! Lemmas about the tokenizer. -/

namespace Verif.Json

open Verif.Rep (b)

theorem scanPrim_app : ∀ (s a r), scanPrim s = some (a, r) → s = a ++ r
  | [], a, r, h => by simp [scanPrim] at h; simp [h]
  | c :: q, a, r, h => by
    rw [scanPrim] at h
    split at h
    · cases h; rfl
    · split at h
      · cases h
      · split at h
        · next s q' e => cases h; rw [scanPrim_app _ _ _ e]; rfl
        · cases h

theorem scanPrim_pos {c : UInt8} {q a r : List UInt8} (hd : isDelim c = false)
    (h : scanPrim (c :: q) = some (a, r)) : ∃ a', a = c :: a' := by
  rw [scanPrim, hd] at h
  simp only [Bool.false_eq_true, if_false] at h
  split at h
  · cases h
  · split at h
    · cases h; exact ⟨_, rfl⟩
    · cases h

theorem plainStep_none {c : UInt8} (h : plainStep c = none) : c = 34 := by
  unfold plainStep at h
  split at h
  · next e => simpa using e
  · split at h <;> cases h

theorem strStep_close {st : StrSt} {c : UInt8} (h : strStep st c = .inl true) : c = 34 := by
  unfold strStep at h
  cases st with
  | plain =>
    dsimp only at h
    split at h
    · cases h
    · split at h
      · next e => exact plainStep_none e
      · cases h
  | esc =>
    dsimp only at h
    split at h
    · cases h
    · split at h <;> cases h
  | hex n =>
    cases n with
    | zero =>
      dsimp only at h
      split at h
      · cases h
      · split at h
        · next e => exact plainStep_none e
        · cases h
    | succ n =>
      dsimp only at h
      split at h
      · cases h
      · split at h <;> cases h

theorem scanStr_app : ∀ (s st a r), scanStr st s = .done a r → s = a ++ 34 :: r
  | [], st, a, r, h => by cases st <;> cases h
  | c :: q, st, a, r, h => by
    rw [scanStr] at h
    split at h
    · next e => cases h; rw [strStep_close e]; rfl
    · cases h
    · split at h
      · next e => cases h; rw [scanStr_app _ _ _ _ e]; rfl
      · cases h

theorem isDelim_default {c : UInt8} (h1 : ¬ (c == 125 || c == 93) = true) (h2 : ¬ isSkip c = true) :
    isDelim c = false := by
  revert h1 h2
  revert c
  apply forall_u8
  decide +kernel

theorem scanF_fuel : ∀ (n m : Nat) (p : Parser) (s : List UInt8), s.length < n → s.length < m →
    scanF n p s = scanF m p s
  | 0, _, _, s, h, _ => by omega
  | n + 1, 0, _, s, _, h => by omega
  | n + 1, m + 1, p, [], _, _ => by rw [scanF, scanF]
  | n + 1, m + 1, p, c :: r, hn, hm => by
    have hn' : r.length < n := by simp at hn; omega
    have hm' : r.length < m := by simp at hm; omega
    rw [scanF, scanF]
    split
    · rfl
    · split
      · exact scanF_fuel n m _ r hn' hm'
      · split
        · split
          · rfl
          · rw [scanF_fuel n m _ r hn' hm']
        · split
          · split
            · rfl
            · next s r' e =>
              have := scanStr_app _ _ _ _ e
              have hl : r'.length < r.length := by rw [this]; simp; omega
              rw [scanF_fuel n m _ r' (by omega) (by omega)]
          · split
            · exact scanF_fuel n m _ r hn' hm'
            · next h1 _ h2 =>
              split
              · rfl
              · next s r' e =>
                obtain ⟨a', ha⟩ := scanPrim_pos (isDelim_default h1 h2) e
                have := scanPrim_app _ _ _ e
                have hl : r'.length ≤ r.length := by
                  have := congrArg List.length this
                  rw [ha] at this; simp at this; omega
                rw [scanF_fuel n m _ r' (by omega) (by omega)]

theorem scan_nil (p : Parser) : scan p [] = ([], p.depth == 0) := rfl

theorem scan_open (p : Parser) {c : UInt8} (r : List UInt8) (h : c = 123 ∨ c = 91) :
    scan p (c :: r) = scan (openC p (c == 123) r) r := by
  rcases h with rfl | rfl <;> rfl

theorem scan_close (p : Parser) {c : UInt8} (r : List UInt8) (h : c = 125 ∨ c = 93) :
    scan p (c :: r) = match closeC p (c == 125) (c :: r) with
      | none => ([], false)
      | some (p', t) => prep t.toList (scan p' r) := by
  rcases h with rfl | rfl <;> rfl

theorem scan_quote (p : Parser) (r : List UInt8) :
    scan p (34 :: r) = match scanStr .plain r with
      | .fail => ([], false)
      | .done s r' => prep (if p.cont then [] else [(.str, s)]) (scan p r') := by
  have : scan p (34 :: r) = match scanStr .plain r with
      | .fail => ([], false)
      | .done s r' => prep (if p.cont then [] else [(.str, s)]) (scanF (r.length + 1) p r') := rfl
  rw [this]
  split
  · rfl
  · next s r' e =>
    have := scanStr_app _ _ _ _ e
    have hl : r'.length < r.length := by rw [this]; simp; omega
    rw [scan, scanF_fuel (r.length + 1) (r'.length + 1) p r' (by omega) (by omega)]

theorem scan_skip (p : Parser) {c : UInt8} (r : List UInt8) (h : isSkip c = true) :
    scan p (c :: r) = scan p r := by
  have hc : ((c == 0) = false) ∧ ((c == 123 || c == 91) = false) ∧ ((c == 125 || c == 93) = false) ∧
      ((c == 34) = false) := by
    revert h; revert c; apply forall_u8; decide +kernel
  obtain ⟨h0, h1, h2, h3⟩ := hc
  rw [scan, List.length_cons, scanF, h0, h1, h2, h3, h]
  rfl

/-- A byte that starts a primitive. -/
def PrimStart (c : UInt8) : Prop :=
  c ≠ 0 ∧ c ≠ 123 ∧ c ≠ 91 ∧ c ≠ 125 ∧ c ≠ 93 ∧ c ≠ 34 ∧ isSkip c = false

theorem scan_prim (p : Parser) {c : UInt8} (r : List UInt8) (h : PrimStart c) :
    scan p (c :: r) = match scanPrim (c :: r) with
      | none => ([], false)
      | some (s, r') => prep (if p.cont then [] else [(.prim, s)]) (scan p r') := by
  obtain ⟨h0, h1, h2, h3, h4, h5, h6⟩ := h
  rw [scan, List.length_cons, scanF]
  simp only [h0, h1, h2, h3, h4, h5, h6, beq_iff_eq, Bool.false_eq_true, if_false,
    Bool.or_eq_true, or_self]
  split
  · next e => rw [e]
  · next s r' e =>
    rw [e]
    dsimp only
    obtain ⟨a', ha⟩ := scanPrim_pos (isDelim_default (by simp [h3, h4]) (by simp [h6])) e
    have := scanPrim_app _ _ _ e
    have hl : r'.length ≤ r.length := by
      have := congrArg List.length this
      rw [ha] at this; simp at this; omega
    rw [scan, scanF_fuel (r.length + 1) (r'.length + 1) p r' (by omega) (by omega)]

/-! ### Skipping texts inside a container -/

theorem ws_skip {w : List UInt8} (h : Ws w) : ∀ c ∈ w, isSkip c = true := by
  intro c hc
  rcases h c hc with rfl | rfl | rfl | rfl <;> rfl

theorem scan_ws (p : Parser) : ∀ {w : List UInt8} (r : List UInt8), (∀ c ∈ w, isSkip c = true) →
    scan p (w ++ r) = scan p r
  | [], r, _ => rfl
  | c :: w, r, h => by
    rw [List.cons_append, scan_skip p _ (h c (by simp)), scan_ws p r (fun d hd => h d (by simp [hd]))]

theorem scanStr_plain : ∀ {s : List UInt8} (r : List UInt8), Plain s →
    scanStr .plain (s ++ 34 :: r) = .done s r
  | [], r, _ => rfl
  | c :: s, r, h => by
    have hc := h c (by simp)
    have : strStep .plain c = .inr .plain := by
      simp [strStep, plainStep, hc.1, hc.2.1, hc.2.2]
    rw [List.cons_append, scanStr, this]
    dsimp only
    rw [scanStr_plain r (fun d hd => h d (by simp [hd]))]

theorem scan_str (p : Parser) {s : List UInt8} (r : List UInt8) (h : Plain s) :
    scan p (quote s ++ r) = prep (if p.cont then [] else [(.str, s)]) (scan p r) := by
  have : quote s ++ r = 34 :: (s ++ 34 :: r) := by simp [quote]
  rw [this, scan_quote, scanStr_plain r h]

/-- Bytes that may stand in a primitive. -/
def PrimByte (c : UInt8) : Prop := isDelim c = false ∧ 32 ≤ c ∧ c < 127

/-- The text does not go on with a primitive. -/
def Ends : List UInt8 → Prop
  | [] => True
  | c :: _ => isDelim c = true

theorem scanPrim_take : ∀ {s : List UInt8} (r : List UInt8), (∀ c ∈ s, PrimByte c) → Ends r →
    scanPrim (s ++ r) = some (s, r)
  | [], [], _, _ => rfl
  | [], c :: r, _, h => by
    have h : isDelim c = true := h
    rw [List.nil_append, scanPrim, h]; rfl
  | c :: s, r, h, hr => by
    obtain ⟨h1, h2, h3⟩ := h c (by simp)
    rw [List.cons_append, scanPrim, h1, scanPrim_take r (fun d hd => h d (by simp [hd])) hr]
    have h2' : ¬ c < 32 := UInt8.not_lt.2 h2
    have h3' : ¬ 127 ≤ c := UInt8.not_le.2 h3
    simp [h2', h3']

theorem scan_prims (p : Parser) {s : List UInt8} (r : List UInt8) (hs : s ≠ [])
    (h0 : ∀ c ∈ s, PrimByte c ∧ PrimStart c) (hr : Ends r) :
    scan p (s ++ r) = prep (if p.cont then [] else [(.prim, s)]) (scan p r) := by
  cases s with
  | nil => exact absurd rfl hs
  | cons c s =>
    rw [List.cons_append, scan_prim p _ (h0 c (by simp)).2, ← List.cons_append,
      scanPrim_take r (fun d hd => (h0 d hd).1) hr]

/-- Bytes of the primitives that occur in JSON texts. -/
theorem word_bytes {c : UInt8} (h : c ∈ b "null" ∨ c ∈ b "true" ∨ c ∈ b "false" ∨ c = 45 ∨
    (48 ≤ c.toNat ∧ c.toNat ≤ 57)) : PrimByte c ∧ PrimStart c := by
  revert h
  revert c
  unfold PrimByte PrimStart
  apply forall_u8
  decide +kernel

theorem int_bytes (i : Int) : ∀ c ∈ intText i, PrimByte c ∧ PrimStart c := by
  intro c hc
  apply word_bytes
  unfold intText at hc
  split at hc
  · rcases List.mem_cons.1 hc with rfl | h
    · simp
    · exact .inr (.inr (.inr (.inr (dec_digit _ _ h))))
  · exact .inr (.inr (.inr (.inr (dec_digit _ _ hc))))

theorem intText_ne (i : Int) : intText i ≠ [] := by
  unfold intText
  split
  · simp
  · exact dec_ne_nil _

theorem bool_bytes (x : Bool) : ∀ c ∈ boolText x, PrimByte c ∧ PrimStart c := by
  intro c hc
  apply word_bytes
  cases x
  · exact .inr (.inr (.inl hc))
  · exact .inr (.inl hc)

theorem boolText_ne (x : Bool) : boolText x ≠ [] := by cases x <;> simp [boolText, b]

theorem null_bytes : ∀ c ∈ b "null", PrimByte c ∧ PrimStart c :=
  fun _ hc => word_bytes (.inl hc)

/-- A container is being skipped. -/
def In (p : Parser) : Prop := p.cont = true ∧ 0 < p.depth

theorem prep_nil (q : List (Kind × List UInt8) × Bool) : prep [] q = q := rfl

theorem ends_ws {w : List UInt8} {r : List UInt8} (h : Ws w) (hr : Ends r) : Ends (w ++ r) := by
  cases w with
  | nil => exact hr
  | cons c w =>
    have : isDelim c = true := by rcases h c (by simp) with rfl | rfl | rfl | rfl <;> rfl
    exact this

/-- Entering and leaving a container inside a container. -/
theorem scan_nested {p : Parser} (hp : In p) {o c : UInt8} (t r : List UInt8)
    (ho : o = 123 ∨ o = 91) (hc : c = 125 ∨ c = 93)
    (h : ∀ q, In q → scan q (t ++ c :: r) = scan q (c :: r)) :
    scan p (o :: t ++ c :: r) = scan p r := by
  rw [List.cons_append, scan_open p _ ho]
  have e : openC p (o == 123) (t ++ c :: r) = { p with depth := p.depth + 1 } := by
    simp [openC, hp.1]
  rw [e, h { p with depth := p.depth + 1 } ⟨hp.1, by simp⟩, scan_close _ _ hc]
  have : closeC { p with depth := p.depth + 1 } (c == 125) (c :: r) = some (p, none) := by
    have h2 : p.depth ≠ 0 := by have := hp.2; omega
    have h3 : p.cont = true := hp.1
    cases p
    simp_all [closeC]
  rw [this]
  rfl

/-- What it means for a kind of text to be skipped inside a container. -/
def Skips (t : List UInt8) : Prop := ∀ p r, In p → Ends r → scan p (t ++ r) = scan p r

theorem skips_prim {s : List UInt8} (hs : s ≠ []) (h : ∀ c ∈ s, PrimByte c ∧ PrimStart c) :
    Skips s := by
  intro p r hp hr
  rw [scan_prims p r hs h hr, hp.1]
  rfl

theorem skips_str {s : List UInt8} (h : Plain s) : Skips (quote s) := by
  intro p r hp _
  rw [scan_str p r h, hp.1]
  rfl

theorem skips_ws {w : List UInt8} (h : Ws w) : Skips w := by
  intro p r _ _
  exact scan_ws p r (ws_skip h)

theorem skips_cont {o c : UInt8} {t : List UInt8} (ho : o = 123 ∨ o = 91) (hc : c = 125 ∨ c = 93)
    (h : Skips t) : Skips (o :: t ++ [c]) := by
  intro p r hp _
  have : (o :: t ++ [c]) ++ r = o :: t ++ c :: r := by simp
  rw [this]
  refine scan_nested hp t r ho hc fun q hq => h q _ hq ?_
  show isDelim c = true
  rcases hc with rfl | rfl <;> rfl

theorem skips_sep {α : Type} {P : List UInt8 → α → Prop} (hP : ∀ t a, P t a → Skips t) :
    ∀ {t : List UInt8} {l : List α}, Sep P t l → Skips t := by
  intro t l h
  induction h with
  | one w t w' a h1 h2 h3 =>
    intro p r hp hr
    rw [List.append_assoc, List.append_assoc, scan_ws p _ (ws_skip h1),
      hP _ _ h2 p _ hp (ends_ws h3 hr), scan_ws p _ (ws_skip h3)]
  | cons w t w' a rest l h1 h2 h3 _ ih =>
    intro p r hp hr
    rw [List.append_assoc, List.append_assoc, List.append_assoc, List.cons_append,
      scan_ws p _ (ws_skip h1), hP _ _ h2 p _ hp (ends_ws h3 (show Ends (44 :: _) from rfl)),
      scan_ws p _ (ws_skip h3), scan_skip p _ rfl, ih p r hp hr]

mutual
theorem skips_txt : ∀ {t : List UInt8} {v : Val}, Txt t v → Skips t
  | _, _, .null => skips_prim (by simp [b]) null_bytes
  | _, _, .bool x => skips_prim (boolText_ne x) (bool_bytes x)
  | _, _, .int i _ => skips_prim (intText_ne i) (int_bytes i)
  | _, _, .str _ h => skips_str h
  | _, _, .empty _ h => skips_cont (.inr rfl) (.inr rfl) (skips_ws h)
  | _, _, .bools _ _ h => skips_cont (.inr rfl) (.inr rfl)
      (skips_sep (fun t a (e : t = boolText a) => e ▸ skips_prim (boolText_ne a) (bool_bytes a)) h)
  | _, _, .ints _ _ h => skips_cont (.inr rfl) (.inr rfl)
      (skips_sep (fun t a (e : IntT t a) => e.1 ▸ skips_prim (intText_ne a) (int_bytes a)) h)
  | _, _, .strs _ _ h => skips_cont (.inr rfl) (.inr rfl)
      (skips_sep (fun t a (e : StrT t a) => e.1 ▸ skips_str e.2.1) h)
  | _, _, .obj _ _ h => skips_cont (.inl rfl) (.inl rfl) (skips_members h)
  | _, _, .objs _ _ h => skips_cont (.inr rfl) (.inr rfl) (skips_objects h)
theorem skips_members : ∀ {t : List UInt8} {l}, Members t l → Skips t
  | _, _, .none _ h => skips_ws h
  | _, _, .some _ _ h => skips_members1 h
theorem skips_members1 : ∀ {t : List UInt8} {l}, Members1 t l → Skips t
  | _, _, .one w k w1 w2 t v w3 h h1 h2 h3 h4 h5 => by
    intro p r hp hr
    have := skips_txt h4 p (w3 ++ r) hp (ends_ws h5 hr)
    simp only [List.append_assoc, List.cons_append]
    rw [scan_ws p _ (ws_skip h), scan_str p _ h1, hp.1]
    simp only [if_true, prep_nil]
    rw [scan_ws p _ (ws_skip h2), scan_skip p _ rfl, scan_ws p _ (ws_skip h3), this,
      scan_ws p _ (ws_skip h5)]
  | _, _, .cons w k w1 w2 t v w3 rest l h h1 h2 h3 h4 h5 h6 => by
    intro p r hp hr
    have := skips_txt h4 p (w3 ++ 44 :: (rest ++ r)) hp (ends_ws h5 (show Ends (44 :: _) from rfl))
    have ih := skips_members1 h6 p r hp hr
    simp only [List.append_assoc, List.cons_append]
    rw [scan_ws p _ (ws_skip h), scan_str p _ h1, hp.1]
    simp only [if_true, prep_nil]
    rw [scan_ws p _ (ws_skip h2), scan_skip p _ rfl, scan_ws p _ (ws_skip h3), this,
      scan_ws p _ (ws_skip h5), scan_skip p _ rfl, ih]
theorem skips_objects : ∀ {t : List UInt8} {l}, Objects t l → Skips t
  | _, _, .one w t l w' h1 h2 h3 => by
    intro p r hp hr
    have := skips_cont (.inl rfl) (.inl rfl) (skips_members h2) p (w' ++ r) hp (ends_ws h3 hr)
    simp only [List.append_assoc, List.cons_append, List.nil_append] at this ⊢
    rw [scan_ws p _ (ws_skip h1), this, scan_ws p _ (ws_skip h3)]
  | _, _, .cons w t l w' rest ls h1 h2 h3 h4 => by
    intro p r hp hr
    have := skips_cont (.inl rfl) (.inl rfl) (skips_members h2) p (w' ++ 44 :: (rest ++ r)) hp
      (ends_ws h3 (show Ends (44 :: _) from rfl))
    have ih := skips_objects h4 p r hp hr
    simp only [List.append_assoc, List.cons_append, List.nil_append] at this ⊢
    rw [scan_ws p _ (ws_skip h1), this, scan_ws p _ (ws_skip h3), scan_skip p _ rfl, ih]
end

/-! ### Tokens at the top of a text -/

/-- The text yields one token. -/
def Tok (t : List UInt8) (x : Kind × List UInt8) : Prop :=
  ∀ r, Ends r → scan {} (t ++ r) = prep [x] (scan {} r)

theorem tok_prim {s : List UInt8} (hs : s ≠ []) (h : ∀ c ∈ s, PrimByte c ∧ PrimStart c) :
    Tok s (.prim, s) := by
  intro r hr
  rw [scan_prims {} r hs h hr]
  rfl

theorem tok_str {s : List UInt8} (h : Plain s) : Tok (quote s) (.str, s) := by
  intro r _
  rw [scan_str {} r h]
  rfl

theorem tok_cont {o c : UInt8} {t : List UInt8} (h : (o = 123 ∧ c = 125) ∨ (o = 91 ∧ c = 93))
    (hs : Skips t) : Tok (o :: t ++ [c]) (if o == 123 then .obj else .arr, t) := by
  intro r _
  have ho : o = 123 ∨ o = 91 := h.imp And.left And.left
  have hc : c = 125 ∨ c = 93 := h.imp And.right And.right
  have e : (o :: t ++ [c]) ++ r = o :: (t ++ c :: r) := by simp
  rw [e, scan_open _ _ ho]
  have e2 : openC {} (o == 123) (t ++ c :: r) =
      { cont := true, depth := 1, isObj := o == 123, start := t ++ c :: r } := rfl
  rw [e2, hs { cont := true, depth := 1, isObj := o == 123, start := t ++ c :: r } (c :: r)
    ⟨rfl, by simp⟩ (by show isDelim c = true; rcases hc with rfl | rfl <;> rfl), scan_close _ _ hc]
  have e3 : closeC { cont := true, depth := 1, isObj := o == 123, start := t ++ c :: r } (c == 125)
      (c :: r) = some ({}, some (if o == 123 then .obj else .arr, t)) := by
    have hk : (o == 123) = (c == 125) := by rcases h with ⟨rfl, rfl⟩ | ⟨rfl, rfl⟩ <;> rfl
    have hl : (t ++ c :: r).take ((t ++ c :: r).length - (c :: r).length) = t := by simp
    rw [closeC]
    simp only [hl, hk]
    simp
  rw [e3]
  rfl

theorem toks_sep {α : Type} {P : List UInt8 → α → Prop} {f : α → Kind × List UInt8}
    (hP : ∀ t a, P t a → Tok t (f a)) :
    ∀ {t : List UInt8} {l : List α}, Sep P t l → scan {} t = (l.map f, true) := by
  intro t l h
  induction h with
  | one w t w' a h1 h2 h3 =>
    have e : w' = w' ++ [] := by simp
    rw [List.append_assoc, scan_ws _ _ (ws_skip h1), hP _ _ h2 w' (e ▸ ends_ws h3 (r := []) trivial),
      e, scan_ws _ _ (ws_skip h3)]
    rfl
  | cons w t w' a rest l h1 h2 h3 _ ih =>
    rw [List.append_assoc, List.append_assoc,
      scan_ws _ _ (ws_skip h1), hP _ _ h2 _ (ends_ws h3 (show Ends (44 :: _) from rfl)),
      scan_ws _ _ (ws_skip h3), scan_skip _ _ rfl, ih]
    rfl

theorem sep_ne {α : Type} {P : List UInt8 → α → Prop} {t : List UInt8} {l : List α}
    (h : Sep P t l) : l ≠ [] := by cases h <;> simp

theorem sep_all {α : Type} {P : List UInt8 → α → Prop} {Q : α → Prop} (hP : ∀ t a, P t a → Q a)
    {t : List UInt8} {l : List α} (h : Sep P t l) : ∀ a ∈ l, Q a := by
  induction h with
  | one w t w' a h1 h2 h3 => simpa using hP _ _ h2
  | cons w t w' a rest l h1 h2 h3 _ ih => simpa using ⟨hP _ _ h2, ih⟩

/-! ### Values of primitives -/

theorem parseBool_text (x : Bool) : parseBool (boolText x) = some x := by cases x <;> rfl

theorem isNull_bool (x : Bool) : isNull (boolText x) = false := by cases x <;> rfl

theorem takeWhile_all {p : UInt8 → Bool} : ∀ {l : List UInt8}, (∀ c ∈ l, p c = true) →
    l.takeWhile p = l
  | [], _ => rfl
  | c :: l, h => by
    rw [List.takeWhile_cons, h c (by simp), takeWhile_all (fun d hd => h d (by simp [hd]))]
    rfl

theorem digits_dec (n : Nat) : digits (dec n) = dec n := by
  unfold digits
  apply takeWhile_all
  intro c hc
  have := dec_digit n c hc
  unfold IsDigit at this
  simp only [isDig, Bool.and_eq_true, decide_eq_true_eq, UInt8.le_iff_toNat_le]
  exact this

theorem head_dec (n : Nat) : ∃ c q, dec n = c :: q ∧ IsDigit c := by
  match h : dec n with
  | [] => exact absurd h (dec_ne_nil n)
  | c :: q => exact ⟨c, q, rfl, dec_digit n c (by simp [h])⟩

theorem sign_text (i : Int) : sign (intText i) = (decide (i < 0), dec i.natAbs) := by
  unfold intText
  split
  · next h => simp [sign, h]
  · next h =>
    obtain ⟨c, q, e, hc⟩ := head_dec i.natAbs
    have h1 : c ≠ 45 := by intro h; subst h; exact absurd hc (by unfold IsDigit; decide)
    have h2 : c ≠ 43 := by intro h; subst h; exact absurd hc (by unfold IsDigit; decide)
    rw [e]
    simp [sign, h1, h2, h]

theorem strtoll_text {i : Int} (h : I64 i) : strtoll (intText i) = some i := by
  have hd : (digits (dec i.natAbs)).isEmpty = false := by
    rw [digits_dec]
    cases e : dec i.natAbs with
    | nil => exact absurd e (dec_ne_nil _)
    | cons => rfl
  have hv : digitsVal (dec i.natAbs) = i.natAbs := dec_val i.natAbs
  have hs : signed (decide (i < 0)) i.natAbs = i := by
    unfold signed
    split
    · next h => simp at h; omega
    · next h => simp at h; omega
  unfold strtoll
  rw [sign_text]
  dsimp only
  rw [hd, digits_dec, hv, hs]
  exact if_pos h

theorem intText_length {i : Int} (h : I64 i) : (intText i).length ≤ 31 := by
  have hb : i.natAbs < 10 ^ (19 + 1) := by
    obtain ⟨h1, h2⟩ := h
    have : i.natAbs ≤ 9223372036854775808 := by omega
    omega
  have := dec_length hb
  unfold intText
  split
  · simp; omega
  · omega

theorem parseInt_text {i : Int} (h : I64 i) : parseInt (intText i) = some i := by
  unfold parseInt
  rw [List.take_of_length_le (intText_length h), strtoll_text h]

theorem intText_head (i : Int) : ∃ c q, intText i = c :: q ∧ (c = 45 ∨ IsDigit c) := by
  unfold intText
  split
  · exact ⟨_, _, rfl, .inl rfl⟩
  · obtain ⟨c, q, e, h⟩ := head_dec i.natAbs
    exact ⟨c, q, e, .inr h⟩

theorem intText_word (i : Int) {c : UInt8} {q : List UInt8} (hc : c = 110 ∨ c = 116 ∨ c = 102) :
    intText i ≠ c :: q := by
  obtain ⟨c', q', e, h⟩ := intText_head i
  rw [e]
  intro h'
  have := (List.cons.inj h').1
  subst this
  unfold IsDigit at h
  rcases hc with rfl | rfl | rfl <;> revert h <;> decide

theorem isNull_int (i : Int) : isNull (intText i) = false := by
  unfold isNull
  exact beq_eq_false_iff_ne.2 (intText_word i (q := [117, 108, 108]) (.inl rfl))

theorem parseBool_int (i : Int) : parseBool (intText i) = none := by
  unfold parseBool
  have h1 : (intText i == b "true") = false := 
    beq_eq_false_iff_ne.2 (intText_word i (q := [114, 117, 101]) (.inr (.inl rfl)))
  have h2 : (intText i == b "false") = false := 
    beq_eq_false_iff_ne.2 (intText_word i (q := [97, 108, 115, 101]) (.inr (.inr rfl)))
  rw [h1, h2]; rfl

theorem primVal_bool (x : Bool) : primVal (boolText x) = some (.bool x) := by
  unfold primVal
  rw [isNull_bool, parseBool_text]; rfl

theorem primVal_int {i : Int} (h : I64 i) : primVal (intText i) = some (.int i) := by
  unfold primVal
  rw [isNull_int, parseBool_int, parseInt_text h]; rfl

end Verif.Json
