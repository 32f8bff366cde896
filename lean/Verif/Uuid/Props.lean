import Verif.Uuid.Model
import Verif.Uuid.Spec
/-!
Property theorems for `api/oc_uuid.c` (C03, C04, C48).
-/
namespace Verif.Uuid
open Spec

theorem charBits_hex : ∀ b : UInt8, ∀ v ∈ hexVal (ch b), ch b ≠ '-' →
    b ≠ 45 ∧ v < 16 ∧ charBits b = .ok (UInt8.ofNat v) := by
  apply forall_u8; decide +kernel

theorem dash_iff : ∀ b : UInt8, ch b = '-' → b = 45 := by
  apply forall_u8; decide +kernel

theorem or_nib : ∀ h < 16, ∀ l < 16,
    (UInt8.ofNat (16 * h) ||| UInt8.ofNat l) = UInt8.ofNat (16 * h + l) := by decide +kernel
theorem zero_or_nib : ∀ l < 16, ((0 : UInt8) ||| UInt8.ofNat l) <<< 4 = UInt8.ofNat (16 * l) := by
  decide +kernel

theorem parseLoop_digits : ∀ (s : List UInt8) (ds : List Nat) (acc : List UInt8),
    digits s = some ds →
    (acc.length + ds.length / 2 ≤ 16 →
      parseLoop s acc (2 * acc.length + 1) 0
        = .ok (some (acc ++ (pairs ds).map UInt8.ofNat))) ∧
    (∀ h < 16, acc.length + (ds.length + 1) / 2 ≤ 16 →
      parseLoop s acc (2 * acc.length + 2) (UInt8.ofNat (16 * h))
        = .ok (some (acc ++ (pairs (h :: ds)).map UInt8.ofNat))) := by
  intro s
  induction s with
  | nil =>
    intro ds acc hd
    simp only [digits, Option.some.injEq] at hd
    subst hd
    simp [parseLoop, pairs]
  | cons b r ih =>
    intro ds acc hd
    simp only [digits] at hd
    by_cases hb : ch b = '-'
    · rw [if_pos hb] at hd
      have := dash_iff b hb
      subst this
      simp only [parseLoop, ↓reduceIte]
      exact ih ds acc hd
    · rw [if_neg hb] at hd
      cases hv : hexVal (ch b) with
      | none => simp [hv] at hd
      | some v =>
      cases hr : digits r with
      | none => simp [hv, hr] at hd
      | some vs =>
      simp only [hv, hr, Option.some.injEq] at hd
      subst hd
      obtain ⟨h1, h2, h3⟩ := charBits_hex b v hv hb
      simp only [parseLoop, h1, ↓reduceIte, h3, Out.ok_bind, List.length_cons]
      constructor
      · intro hl
        rw [if_neg (by omega), zero_or_nib _ h2]
        exact (ih vs acc hr).2 v h2 hl
      · intro h hh hl
        rw [if_pos (by omega), if_neg (by unfold idSize; omega), or_nib _ hh _ h2]
        have := (ih vs (acc ++ [UInt8.ofNat (16 * h + v)]) hr).1 (by
          simp only [List.length_append, List.length_singleton]; omega)
        simp only [List.length_append, List.length_singleton] at this
        rw [show 2 * acc.length + 2 + 1 = 2 * (acc.length + 1) + 1 by omega, this]
        simp [pairs]

theorem pairs_length : ∀ ds : List Nat, (pairs ds).length = ds.length / 2
  | [] => rfl
  | [_] => by simp [pairs]
  | a :: b :: r => by
      simp only [pairs, List.length_cons, pairs_length r]; omega

/-- C03: any text with 32 hexadecimal digits of either case and dashes anywhere
(at most 36 characters) is parsed to the 16 bytes it denotes. -/
theorem ofStr_hex (s : List UInt8) (ds : List Nat) (hs : s.length ≤ 36)
    (hd : digits s = some ds) (h32 : ds.length = 32) :
    ofStr s = .ok (some 16, some ((pairs ds).map UInt8.ofNat)) := by
  have hne : s ≠ [42] := by
    rintro rfl
    have : digits [42] = none := by decide
    rw [this] at hd; cases hd
  have h := (parseLoop_digits s ds [] hd).1 (by simp [h32])
  simp only [List.length_nil, Nat.mul_zero, Nat.zero_add, List.nil_append] at h
  have hl : ((pairs ds).map UInt8.ofNat).length = 16 := by simp [pairs_length, h32]
  simp only [ofStr, hne, ↓reduceIte, textMax, List.take_of_length_le hs, h, Out.ok_bind, hl]
  simp [idSize]

/-- "0A1b…": 32 digits of mixed case without dashes. -/
example : ofStr ((List.replicate 8 [48, 65, 49, 98]).flatten)
    = .ok (some 16, some ((List.replicate 8 [10, 27]).flatten)) := by
  rw [ofStr_hex _ ((List.replicate 8 [0, 10, 1, 11]).flatten) (by decide) (by decide) (by decide)]
  decide

theorem hex2_digits : ∀ b : UInt8, ∀ r ds, digits r = some ds →
    digits (hex2 b ++ r) = some ((b.toNat / 16) :: (b.toNat % 16) :: ds) := by
  have key : ∀ b : UInt8, ch (hexDigit (b >>> 4)) ≠ '-' ∧ ch (hexDigit (b &&& 0x0f)) ≠ '-' ∧
      hexVal (ch (hexDigit (b >>> 4))) = some (b.toNat / 16) ∧
      hexVal (ch (hexDigit (b &&& 0x0f))) = some (b.toNat % 16) := by
    apply forall_u8; decide +kernel
  intro b r ds hr
  obtain ⟨h1, h2, h3, h4⟩ := key b
  simp [hex2, digits, h1, h2, h3, h4, hr]

theorem hex2_wf : ∀ b : UInt8, ∀ x ∈ hex2 b,
    (hexVal (ch x)).isSome ∧ ¬ ('A' ≤ ch x ∧ ch x ≤ 'F') := by
  apply forall_u8; decide +kernel

/-- The nibbles of a byte sequence. -/
def nibbles : List UInt8 → List Nat
  | [] => []
  | b :: r => (b.toNat / 16) :: (b.toNat % 16) :: nibbles r

theorem pairs_nibbles : ∀ u : List UInt8, (pairs (nibbles u)).map UInt8.ofNat = u
  | [] => rfl
  | b :: r => by
      simp only [nibbles, pairs, List.map_cons, pairs_nibbles r]
      congr 1
      have : 16 * (b.toNat / 16) + b.toNat % 16 = b.toNat := by omega
      rw [this]; simp

theorem nibbles_length (u : List UInt8) : (nibbles u).length = 2 * u.length := by
  induction u with
  | nil => rfl
  | cons b r ih => simp only [nibbles, List.length_cons, ih]; omega

/-- One step of the formatter with the dash decision named. -/
theorem fmtLoop_cons (i cap : Nat) (b : UInt8) (r : List UInt8) :
    fmtLoop i cap (b :: r) =
      if i = 4 ∨ i = 6 ∨ i = 8 ∨ i = 10 then
        (if cap ≤ 3 then none
         else (fmtLoop (i + 1) (cap - 3) r).map fun t => 45 :: (hex2 b ++ t))
      else
        (if cap ≤ 2 then none
         else (fmtLoop (i + 1) (cap - 2) r).map fun t => hex2 b ++ t) := by
  by_cases hd : i = 4 ∨ i = 6 ∨ i = 8 ∨ i = 10
  · simp only [fmtLoop, hd, ↓reduceIte, true_and]
    by_cases h1 : cap ≤ 1
    · rw [if_pos h1, if_pos (by omega)]
    · rw [if_neg h1]
      by_cases h3 : cap ≤ 3
      · rw [if_pos h3, if_pos (by omega)]
      · rw [if_neg h3, if_neg (by omega)]
        simp [Nat.sub_sub]
  · simp only [fmtLoop, hd, ↓reduceIte, false_and, List.nil_append]

theorem fmtLoop_digits : ∀ (u : List UInt8) (i cap : Nat) (s : List UInt8),
    fmtLoop i cap u = some s → digits s = some (nibbles u)
  | [], i, cap, s, h => by
      simp only [fmtLoop, Option.some.injEq] at h
      subst h; rfl
  | b :: r, i, cap, s, h => by
      rw [fmtLoop_cons] at h
      split at h
      · split at h
        · cases h
        · rw [Option.map_eq_some_iff] at h
          obtain ⟨r', hr, rfl⟩ := h
          have h2 := hex2_digits b r' _ (fmtLoop_digits r _ _ r' hr)
          rw [digits, if_pos (by decide)]
          exact h2
      · split at h
        · cases h
        · rw [Option.map_eq_some_iff] at h
          obtain ⟨r', hr, rfl⟩ := h
          exact hex2_digits b r' _ (fmtLoop_digits r _ _ r' hr)

/-- With room for 36 characters and a terminator the formatter writes the
8-4-4-4-12 layout. -/
theorem fmtLoop_layout (u : List UInt8) (hu : u.length = 16) (cap : Nat) (hc : 37 ≤ cap) :
    fmtLoop 0 cap u = some [hex2 u[0], hex2 u[1], hex2 u[2], hex2 u[3], [45],
      hex2 u[4], hex2 u[5], [45], hex2 u[6], hex2 u[7], [45], hex2 u[8], hex2 u[9], [45],
      hex2 u[10], hex2 u[11], hex2 u[12], hex2 u[13], hex2 u[14], hex2 u[15]].flatten := by
  match u, hu with
  | [a0, a1, a2, a3, a4, a5, a6, a7, a8, a9, a10, a11, a12, a13, a14, a15], _ =>
    obtain ⟨c, rfl⟩ : ∃ c, cap = c + 37 := ⟨cap - 37, by omega⟩
    simp [fmtLoop]

/-- Characters the formatter still needs. -/
def need : Nat → Nat → Nat
  | _, 0 => 0
  | i, n + 1 => (if i = 4 ∨ i = 6 ∨ i = 8 ∨ i = 10 then 3 else 2) + need (i + 1) n

theorem fmtLoop_none : ∀ (u : List UInt8) (i cap : Nat), u ≠ [] → cap ≤ need i u.length →
    fmtLoop i cap u = none
  | [], _, _, h, _ => absurd rfl h
  | [b], i, cap, _, hc => by
      rw [fmtLoop_cons]
      simp only [need, List.length_cons, List.length_nil] at hc
      split at hc
      · rename_i h; rw [if_pos h, if_pos (by omega)]
      · rename_i h; rw [if_neg h, if_pos (by omega)]
  | b :: b' :: r, i, cap, _, hc => by
      rw [fmtLoop_cons]
      rw [List.length_cons, need] at hc
      split at hc
      · rename_i h
        rw [if_pos h]
        split
        · rfl
        · rw [fmtLoop_none (b' :: r) _ _ (by simp) (by omega)]; rfl
      · rename_i h
        rw [if_neg h]
        split
        · rfl
        · rw [fmtLoop_none (b' :: r) _ _ (by simp) (by omega)]; rfl

/-- C03: formatting a UUID into at least 37 bytes gives the RFC 4122 text (8-4-4-4-12
lower case hexadecimal digits) and a smaller buffer is refused; the wildcard UUID
is formatted as `*`. -/
theorem toStr_format (u : List UInt8) (hu : u.length = 16)
    (hw : u ≠ 42 :: List.replicate 15 0) (cap : Nat) :
    (37 ≤ cap → ∃ s, toStr u cap = some s ∧ WellFormed s ∧ digits s = some (nibbles u)) ∧
    (cap < 37 → toStr u cap = none) := by
  constructor
  · intro hc
    have h := fmtLoop_layout u hu cap hc
    refine ⟨_, by rw [toStr, if_neg hw]; exact h, ?_, fmtLoop_digits u 0 cap _ h⟩
    refine ⟨hex2 u[0] ++ hex2 u[1] ++ hex2 u[2] ++ hex2 u[3], hex2 u[4] ++ hex2 u[5],
      hex2 u[6] ++ hex2 u[7], hex2 u[8] ++ hex2 u[9],
      hex2 u[10] ++ hex2 u[11] ++ hex2 u[12] ++ hex2 u[13] ++ hex2 u[14] ++ hex2 u[15], 45,
      by decide, by simp, by simp [hex2], by simp [hex2], by simp [hex2], by simp [hex2],
      by simp [hex2], ?_⟩
    intro x hx
    simp only [List.mem_append] at hx
    have hw : ∀ b, x ∈ hex2 b → LowerHex x := fun b hb => hex2_wf b x hb
    grind
  · intro hc
    rw [toStr, if_neg hw]
    exact fmtLoop_none u 0 cap (by intro h; simp [h] at hu) (by rw [hu]; simp [need]; omega)

example : ∃ s, toStr (List.replicate 16 171) 37 = some s ∧ WellFormed s ∧
    digits s = some (nibbles (List.replicate 16 171)) :=
  (toStr_format (List.replicate 16 171) (by decide) (by decide) 37).1 (by decide)

/-- C03: formatting and parsing back returns the same UUID, for every UUID value
(the wildcard included). -/
theorem ofStr_toStr (u : List UInt8) (hu : u.length = 16) (cap : Nat) (s : List UInt8)
    (hs : toStr u cap = some s) :
    ∃ n, ofStr s = .ok (some n, some u) ∧
      n = if u = 42 :: List.replicate 15 0 then 1 else 16 := by
  by_cases hw : u = 42 :: List.replicate 15 0
  · subst hw
    rw [toStr, if_pos rfl] at hs
    split at hs
    · cases hs
    · cases hs
      exact ⟨1, by decide, by simp⟩
  · by_cases hc : 37 ≤ cap
    · obtain ⟨s', h1, h2, h3⟩ := (toStr_format u hu hw cap).1 hc
      rw [hs] at h1
      cases h1
      refine ⟨16, ?_, by rw [if_neg hw]⟩
      rw [ofStr_hex s _ (by obtain ⟨a, b, c, d, e, dash, _, rfl, h⟩ := h2; simp; omega) h3 (by rw [nibbles_length, hu]), pairs_nibbles]
    · rw [(toStr_format u hu hw cap).2 (by omega)] at hs
      cases hs

example : ∃ n, ofStr [42] = .ok (some n, some (42 :: List.replicate 15 0)) ∧ n = 1 :=
  ofStr_toStr (42 :: List.replicate 15 0) (by decide) 37 [42] (by decide)
example (s : List UInt8) (h : toStr (42 :: 1 :: List.replicate 14 0) 40 = some s) :
    ∃ n, ofStr s = .ok (some n, some (42 :: 1 :: List.replicate 14 0)) ∧ n = 16 :=
  ofStr_toStr _ (by decide) 40 s h

/-- C48 is false of the code: text that is not a UUID at all ("zzzz…") is accepted
as the nil UUID, and text with too many digits or garbage is accepted as well. -/
theorem ofStr_accepts_garbage_false :
    ofStr (List.replicate 36 122) ≠ .ok (some 16, some (List.replicate 16 0)) ∧
    ofStr (List.replicate 32 122) = .ok (some 16, some (List.replicate 16 0)) ∧
    ofStr (List.replicate 32 47) = .ok (some 16, some (List.replicate 16 255)) := by decide

theorem parseLoop_acc : ∀ (s acc : List UInt8) (k : Nat) (c : UInt8) (r : List UInt8),
    parseLoop s acc k c = .ok (some r) → acc.length ≤ 16 → r.length ≤ 16
  | [], acc, k, c, r, h, hl => by
      simp only [parseLoop, Out.ok.injEq, Option.some.injEq] at h
      subst h; exact hl
  | ch :: rest, acc, k, c, r, h, hl => by
      simp only [parseLoop] at h
      split at h
      · exact parseLoop_acc rest acc k c r h hl
      · cases hb : charBits ch with
        | ub => simp [hb] at h
        | ok b =>
          simp only [hb, Out.ok_bind] at h
          split at h
          · split at h
            · simp at h
            · rename_i hne
              exact parseLoop_acc rest _ _ _ r h (by
                simp only [List.length_append, List.length_singleton]
                unfold idSize at hne; omega)
          · exact parseLoop_acc rest acc _ _ r h hl

/-- C48 (partial): whatever text is parsed, a UUID that is written has exactly 16
bytes, so the parser never writes outside the structure.  Missing: rejection of
malformed text, which the code does not do. -/
theorem ofStr_size_partial (s u : List UInt8) (n : Option Nat)
    (h : ofStr s = .ok (n, some u)) : u.length = 16 := by
  unfold ofStr at h
  split at h
  · simp only [Out.ok.injEq, Prod.mk.injEq, Option.some.injEq] at h
    rw [← h.2]; decide
  · cases hp : parseLoop (s.take textMax) [] 1 0 with
    | ub => simp [hp] at h
    | ok r =>
    cases r with
    | none => simp [hp] at h
    | some acc =>
      have hacc := parseLoop_acc _ _ _ _ _ hp (by simp)
      simp only [hp, Out.ok_bind] at h
      split at h <;>
      · simp only [Out.pure_eq, Out.ok.injEq, Prod.mk.injEq, Option.some.injEq] at h
        rw [← h.2]
        simp [idSize]; omega

example : ofStr [49, 50] = .ok (none, some (18 :: List.replicate 15 0)) := by decide

theorem charBits_ascii (ch : UInt8) (h : ch < 128) : ∃ b, charBits ch = .ok b := by
  unfold charBits isAlpha
  rw [if_neg (by rw [UInt8.not_le]; exact h)]
  simp only [Out.ok_bind]
  split
  · repeat' first | exact ⟨_, rfl⟩ | split
  · exact ⟨_, rfl⟩

theorem parseLoop_count : ∀ (s acc : List UInt8) (k : Nat) (c : UInt8), (∀ ch ∈ s, ch < 128) →
    1 ≤ k → k ≤ 34 → acc.length = (k - 1) / 2 →
    if k - 1 + s.countP (fun ch => ch ≠ 45) ≤ 33 then
      ∃ r, parseLoop s acc k c = .ok (some r) ∧ r.length = (k - 1 + s.countP (fun ch => ch ≠ 45)) / 2
    else parseLoop s acc k c = .ok none
  | [], acc, k, c, _, h1, h2, h3 => by
      rw [List.countP_nil, Nat.add_zero, if_pos (by omega)]
      exact ⟨acc, rfl, h3⟩
  | ch :: rest, acc, k, c, ha, h1, h2, h3 => by
      have har : ∀ x ∈ rest, x < 128 := fun x hx => ha x (by simp [hx])
      by_cases hd : ch = 45
      · have hcount : (ch :: rest).countP (fun ch => ch ≠ 45) = rest.countP (fun ch => ch ≠ 45) := by
          rw [List.countP_cons]; simp [hd]
        rw [hcount, parseLoop, if_pos hd]
        exact parseLoop_count rest acc k c har h1 h2 h3
      · have hcount : (ch :: rest).countP (fun ch => ch ≠ 45) = rest.countP (fun ch => ch ≠ 45) + 1 := by
          rw [List.countP_cons]; simp [hd]
        obtain ⟨b, hb⟩ := charBits_ascii ch (ha ch (by simp))
        rw [hcount, parseLoop, if_neg hd, hb]
        simp only [Out.ok_bind]
        by_cases hk : (acc.length + 1) * 2 = k
        · rw [if_pos hk]
          by_cases hi : acc.length = idSize
          · rw [if_pos hi]
            unfold idSize at hi
            rw [if_neg (by omega)]
            rfl
          · rw [if_neg hi]
            unfold idSize at hi
            have := parseLoop_count rest (acc ++ [c ||| b]) (k + 1) 0 har (by omega) (by omega) (by simp; omega)
            rw [show k + 1 - 1 + rest.countP (fun ch => ch ≠ 45) = k - 1 + (rest.countP (fun ch => ch ≠ 45) + 1) by omega] at this
            exact this
        · rw [if_neg hk]
          have := parseLoop_count rest acc (k + 1) ((c ||| b) <<< 4) har (by omega) (by omega) (by omega)
          rw [show k + 1 - 1 + rest.countP (fun ch => ch ≠ 45) = k - 1 + (rest.countP (fun ch => ch ≠ 45) + 1) by omega] at this
          exact this

/-- C48 (partial): a text of ASCII characters other than the wildcard is accepted
exactly when 32 or 33 of its first 36 characters are not dashes; shorter and
longer texts are rejected.  Missing: the characters need not be hexadecimal
digits and the dashes may stand anywhere, see `ofStr_accepts_garbage_false`. -/
theorem ofStr_accepts_iff_partial (s : List UInt8) (hs : ∀ ch ∈ s, ch < 128) (hw : s ≠ [42]) :
    (∃ u, ofStr s = .ok (some 16, some u)) ↔
      (s.take 36).countP (fun ch => ch ≠ 45) = 32 ∨ (s.take 36).countP (fun ch => ch ≠ 45) = 33 := by
  have key := parseLoop_count (s.take 36) [] 1 0 (fun ch hc => hs ch (List.mem_of_mem_take hc)) (by omega) (by omega) rfl
  simp only [Nat.sub_self, Nat.zero_add] at key
  unfold ofStr textMax
  rw [if_neg hw]
  generalize (s.take 36).countP (fun ch => ch ≠ 45) = n at key
  by_cases hn : n ≤ 33
  · rw [if_pos hn] at key
    obtain ⟨r, h1, h2⟩ := key
    rw [h1]
    simp only [Out.ok_bind, idSize]
    by_cases hr : r.length = 16
    · have : ¬ (r.length ≠ 16) := fun h => h hr
      simp only [this, if_false]
      exact ⟨fun _ => by omega, fun _ => ⟨_, rfl⟩⟩
    · have : r.length ≠ 16 := hr
      simp only [ne_eq, hr, not_false_eq_true, if_true]
      refine ⟨fun ⟨u, hu⟩ => ?_, fun _ => by omega⟩
      simp at hu
  · rw [if_neg hn] at key
    rw [key]
    simp only [Out.ok_bind]
    refine ⟨fun ⟨u, hu⟩ => ?_, fun _ => by omega⟩
    simp at hu

example : ¬ ∃ u, ofStr (List.replicate 31 48) = .ok (some 16, some u) := by
  rw [ofStr_accepts_iff_partial _ (by decide) (by decide)]; decide
example : ∃ u, ofStr (List.replicate 32 48) = .ok (some 16, some u) := by
  rw [ofStr_accepts_iff_partial _ (by decide) (by decide)]; decide

/-- C04 (partial): the version field of a generated UUID is 4 whatever the random
source delivers.  Missing: the RFC 4122 variant, see `gen_variant_false`. -/
theorem gen_version_partial (r : List UInt8) (hr : r.length = 16) :
    (gen r).length = 16 ∧ version (gen r) = some 4 := by
  have h6 : ∀ x : UInt8, ((x &&& 0x0f) ||| 0x40 : UInt8).toNat / 16 = 4 := by
    apply forall_u8; decide +kernel
  match r, hr with
  | [a0, a1, a2, a3, a4, a5, a6, a7, a8, a9, a10, a11, a12, a13, a14, a15], _ =>
    exact ⟨rfl, congrArg some (h6 a6)⟩

example : version (gen (List.replicate 16 255)) = some 4 :=
  (gen_version_partial (List.replicate 16 255) (by decide)).2

/-- C04 is false of the code: no generated UUID has the RFC 4122 variant bits
`10`; the code sets them to `01`. -/
theorem gen_variant_false (r : List UInt8) (hr : r.length = 16) :
    variantBits (gen r) = some 1 := by
  have h8 : ∀ x : UInt8, ((x &&& 0x3f) ||| 0x40 : UInt8).toNat / 64 = 1 := by
    apply forall_u8; decide +kernel
  match r, hr with
  | [a0, a1, a2, a3, a4, a5, a6, a7, a8, a9, a10, a11, a12, a13, a14, a15], _ =>
    exact congrArg some (h8 a8)

example : variantBits (gen (List.replicate 16 0)) ≠ some 2 := by
  rw [gen_variant_false _ (by decide)]; decide

end Verif.Uuid
