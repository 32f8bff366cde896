import Verif.Json.Lemmas

/-! Exactly which strings the tokenizer accepts. -/

namespace Verif.Json

/-- A hexadecimal digit of RFC 8259 §7. -/
def HexDigit (c : UInt8) : Prop := c ∈ "0123456789abcdefABCDEF".toUTF8.toList

/-- What may stand after the backslash of a two character escape sequence. -/
def EscChar (c : UInt8) : Prop := c ∈ "\"\\/bfnrt".toUTF8.toList

/-- The text between the quotes of a string, RFC 8259 §7. (Control characters other
than the zero byte are let through.) -/
inductive Body : List UInt8 → Prop
  | nil : Body []
  | plain (c t) : c ≠ 0 → c ≠ 34 → c ≠ 92 → Body t → Body (c :: t)
  | esc (c t) : EscChar c → Body t → Body (92 :: c :: t)
  | uni (h1 h2 h3 h4 t) : HexDigit h1 → HexDigit h2 → HexDigit h3 → HexDigit h4 → Body t →
      Body (92 :: 117 :: h1 :: h2 :: h3 :: h4 :: t)

theorem hexDigit_iff (c : UInt8) : isHex c = true ↔ HexDigit c := by
  revert c
  unfold HexDigit
  apply forall_u8
  decide +kernel

theorem escChar_iff (c : UInt8) : isEsc c = true ↔ EscChar c := by
  revert c
  unfold EscChar
  apply forall_u8
  decide +kernel

theorem hex_nonzero (c : UInt8) (h : isHex c = true) : c ≠ 0 := by
  rintro rfl
  revert h
  decide

/-- After the last digit of an escape sequence the tokenizer is inside the string. -/
theorem strStep_hex0 (c : UInt8) : strStep (.hex 0) c = strStep .plain c := rfl

theorem scanStr_hex0 (s : List UInt8) : scanStr (.hex 0) s = scanStr .plain s := by
  cases s with
  | nil => rfl
  | cons c r => rw [scanStr, scanStr, strStep_hex0]

theorem scanStr_step {st q : StrSt} {c : UInt8} {r t rest : List UInt8} (h : strStep st c = .inr q)
    (hr : scanStr q r = .done t rest) : scanStr st (c :: r) = .done (c :: t) rest := by
  rw [scanStr, h]
  dsimp only
  rw [hr]

theorem step_hex (n : Nat) (c : UInt8) (h : HexDigit c) : strStep (.hex (n + 1)) c = .inr (.hex n) := by
  have hx := (hexDigit_iff c).2 h
  have h0 := hex_nonzero c hx
  unfold strStep
  dsimp only
  rw [if_neg (by simpa using h0), if_pos hx]

theorem body_scan (t : List UInt8) (h : Body t) (rest : List UInt8) :
    scanStr .plain (t ++ 34 :: rest) = .done t rest := by
  induction h with
  | nil => rfl
  | plain c t h0 h1 h2 _ ih =>
    refine scanStr_step (q := .plain) ?_ ih
    unfold strStep plainStep
    dsimp only
    rw [if_neg (by simpa using h0), if_neg (by simpa using h1), if_neg (by simpa using h2)]
  | esc c t hc _ ih =>
    refine scanStr_step (q := .esc) (by rfl) (scanStr_step (q := .plain) ?_ ih)
    unfold strStep
    dsimp only
    rw [if_pos ((escChar_iff c).2 hc)]
  | uni a b c d t ha hb hc hd _ ih =>
    refine scanStr_step (q := .esc) (by rfl) (scanStr_step (q := .hex 4) (by rfl) ?_)
    refine scanStr_step (step_hex 3 a ha) (scanStr_step (step_hex 2 b hb) ?_)
    refine scanStr_step (step_hex 1 c hc) (scanStr_step (step_hex 0 d hd) ?_)
    rw [scanStr_hex0]
    exact ih

/-- What the rest of a string must be in each state. -/
def Rest : StrSt → List UInt8 → Prop
  | .plain, t => Body t
  | .esc, t => Body (92 :: t)
  | .hex 0, t => Body t
  | .hex 1, t => ∃ a r, t = a :: r ∧ HexDigit a ∧ Body r
  | .hex 2, t => ∃ a b r, t = a :: b :: r ∧ HexDigit a ∧ HexDigit b ∧ Body r
  | .hex 3, t => ∃ a b c r, t = a :: b :: c :: r ∧ HexDigit a ∧ HexDigit b ∧ HexDigit c ∧ Body r
  | .hex _, t => ∃ a b c d r, t = a :: b :: c :: d :: r ∧ HexDigit a ∧ HexDigit b ∧ HexDigit c ∧ HexDigit d ∧ Body r

/-- The states that occur. -/
def Ok : StrSt → Prop
  | .hex n => n ≤ 4
  | _ => True

theorem plain_sound {c : UInt8} {q : StrSt} (h : strStep .plain c = .inr q) :
    (q = .esc ∧ c = 92) ∨ (q = .plain ∧ c ≠ 0 ∧ c ≠ 34 ∧ c ≠ 92) := by
  unfold strStep plainStep at h
  dsimp only at h
  by_cases h0 : (c == 0) = true
  · rw [if_pos h0] at h; cases h
  rw [if_neg h0] at h
  by_cases h1 : (c == 34) = true
  · rw [if_pos h1] at h; cases h
  rw [if_neg h1] at h
  by_cases h2 : (c == 92) = true
  · rw [if_pos h2] at h
    cases h
    exact Or.inl ⟨rfl, by simpa using h2⟩
  · rw [if_neg h2] at h
    cases h
    exact Or.inr ⟨rfl, by simpa using h0, by simpa using h1, by simpa using h2⟩

theorem scan_rest : ∀ (s : List UInt8) (st : StrSt) (t rest : List UInt8), Ok st →
    scanStr st s = .done t rest → Rest st t := by
  intro s
  induction s with
  | nil => intro st t rest _ h; rw [scanStr] at h; cases h
  | cons c r ih =>
    intro st t rest hok h
    rw [scanStr] at h
    cases hs : strStep st c with
    | inl x =>
      cases x with
      | false => rw [hs] at h; cases h
      | true =>
        rw [hs] at h
        cases h
        cases st with
        | plain => exact .nil
        | esc =>
          unfold strStep at hs
          dsimp only at hs
          by_cases he : isEsc c = true
          · rw [if_pos he] at hs; cases hs
          · rw [if_neg he] at hs
            by_cases hu : (c == 117) = true
            · rw [if_pos hu] at hs; cases hs
            · rw [if_neg hu] at hs; cases hs
        | hex n =>
          cases n with
          | zero => exact .nil
          | succ n =>
            unfold strStep at hs
            dsimp only at hs
            by_cases he : (c == 0) = true
            · rw [if_pos he] at hs; cases hs
            · rw [if_neg he] at hs
              by_cases hu : isHex c = true
              · rw [if_pos hu] at hs; cases hs
              · rw [if_neg hu] at hs; cases hs
    | inr q =>
      rw [hs] at h
      dsimp only at h
      cases hq : scanStr q r with
      | fail => rw [hq] at h; cases h
      | done t' rest' =>
        rw [hq] at h
        cases h
        have plainCase : strStep .plain c = .inr q → Body (c :: t') := by
          intro hp
          rcases plain_sound hp with ⟨rfl, rfl⟩ | ⟨rfl, h0, h1, h2⟩
          · exact ih .esc t' rest trivial hq
          · exact .plain c t' h0 h1 h2 (ih .plain t' rest trivial hq)
        cases st with
        | plain => exact plainCase hs
        | esc =>
          unfold strStep at hs
          dsimp only at hs
          by_cases he : isEsc c = true
          · rw [if_pos he] at hs
            cases hs
            exact .esc c t' ((escChar_iff c).1 he) (ih .plain t' rest trivial hq)
          · rw [if_neg he] at hs
            by_cases hu : (c == 117) = true
            · rw [if_pos hu] at hs
              cases hs
              obtain ⟨a, b, d, e, r', rfl, h1, h2, h3, h4, hb⟩ := ih (.hex 4) t' rest (Nat.le_refl 4) hq
              rw [show c = 117 by simpa using hu]
              exact .uni a b d e r' h1 h2 h3 h4 hb
            · rw [if_neg hu] at hs; cases hs
        | hex n =>
          cases n with
          | zero => exact plainCase hs
          | succ n =>
            have hx : isHex c = true ∧ q = .hex n := by
              unfold strStep at hs
              dsimp only at hs
              by_cases he : (c == 0) = true
              · rw [if_pos he] at hs; cases hs
              · rw [if_neg he] at hs
                by_cases hu : isHex c = true
                · rw [if_pos hu] at hs
                  cases hs
                  exact ⟨hu, rfl⟩
                · rw [if_neg hu] at hs; cases hs
            obtain ⟨hx, rfl⟩ := hx
            have hx := (hexDigit_iff c).1 hx
            have hle : n + 1 ≤ 4 := hok
            have := ih (.hex n) t' rest (show n ≤ 4 by omega) hq
            have hn : n = 0 ∨ n = 1 ∨ n = 2 ∨ n = 3 := by omega
            rcases hn with rfl | rfl | rfl | rfl
            · exact ⟨c, t', rfl, hx, this⟩
            · obtain ⟨a, r', rfl, h1, hb⟩ := this
              exact ⟨c, a, r', rfl, hx, h1, hb⟩
            · obtain ⟨a, b, r', rfl, h1, h2, hb⟩ := this
              exact ⟨c, a, b, r', rfl, hx, h1, h2, hb⟩
            · obtain ⟨a, b, d, r', rfl, h1, h2, h3, hb⟩ := this
              exact ⟨c, a, b, d, r', rfl, hx, h1, h2, h3, hb⟩

/-- Exactly the strings of the grammar of JSON (with control characters let through)
are accepted, and a string ends at the first quote that is not escaped: after an
opening quote the tokenizer delivers `t` and goes on with `rest` if and only if
the text is `t`, a quote, and `rest`, and `t` consists of plain characters, two
character escape sequences and `\u` with four hexadecimal digits of either case. -/
theorem string_iff (s t rest : List UInt8) :
    scanStr .plain s = .done t rest ↔ s = t ++ 34 :: rest ∧ Body t := by
  constructor
  · intro h
    exact ⟨scanStr_app s .plain t rest h, scan_rest s .plain t rest trivial h⟩
  · rintro ⟨rfl, hb⟩
    exact body_scan t hb rest

example : Body [97, 92, 117, 48, 48, 69, 57, 92, 34] :=
  .plain 97 _ (by decide) (by decide) (by decide)
    (.uni _ _ _ _ _ (by unfold HexDigit; decide +kernel) (by unfold HexDigit; decide +kernel)
      (by unfold HexDigit; decide +kernel) (by unfold HexDigit; decide +kernel)
      (.esc 34 _ (by unfold EscChar; decide +kernel) .nil))

end Verif.Json
