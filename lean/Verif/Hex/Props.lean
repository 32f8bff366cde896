import Verif.Hex.Model
import Verif.Uuid.Spec
/-! Property theorems for the hexadecimal conversions (C06). -/
namespace Verif.Hex
open Verif.Uuid.Spec (hexVal ch pairs)

/-- Specification: the digits of a purely hexadecimal text. -/
def hexDigits : List UInt8 → Option (List Nat)
  | [] => some []
  | b :: r => match hexVal (ch b), hexDigits r with
    | some v, some vs => some (v :: vs)
    | _, _ => none

theorem scanDigit_hex : ∀ b : UInt8, ∀ v ∈ hexVal (ch b),
    v < 16 ∧ scanDigit b = .ok (UInt8.ofNat v) := by
  apply forall_u8; decide +kernel

theorem combine : ∀ x < 16, ∀ y < 16,
    ((UInt8.ofNat x <<< 4) ||| UInt8.ofNat y) = UInt8.ofNat (16 * x + y) := by decide +kernel

theorem pairLoop_eq : ∀ (s : List UInt8) (ds : List Nat), hexDigits s = some ds →
    pairLoop s = .ok ((pairs ds).map UInt8.ofNat)
  | [], ds, h => by
      simp only [hexDigits, Option.some.injEq] at h; subst h; rfl
  | [a], ds, h => by
      simp only [hexDigits] at h
      cases hv : hexVal (ch a) with
      | none => simp [hv] at h
      | some v =>
        simp only [hv, Option.some.injEq] at h; subst h
        simp [pairLoop, pairs]
  | a :: b :: r, ds, h => by
      simp only [hexDigits] at h
      cases ha : hexVal (ch a) with
      | none => simp [ha] at h
      | some x =>
      cases hb : hexVal (ch b) with
      | none => simp [ha, hb] at h
      | some y =>
      cases hr : hexDigits r with
      | none => simp [ha, hb, hr] at h
      | some vs =>
        simp only [ha, hb, hr, Option.some.injEq] at h
        subst h
        obtain ⟨h1, h2⟩ := scanDigit_hex a x ha
        obtain ⟨h3, h4⟩ := scanDigit_hex b y hb
        simp only [pairLoop, h2, h4, pairLoop_eq r vs hr, Out.ok_bind, Out.pure_eq, pairs,
          List.map_cons, combine x h1 y h3]

theorem hexDigits_length : ∀ (s : List UInt8) (ds : List Nat), hexDigits s = some ds →
    s.length = ds.length
  | [], ds, h => by
      simp only [hexDigits, Option.some.injEq] at h; subst h; rfl
  | a :: r, ds, h => by
      simp only [hexDigits] at h
      cases ha : hexVal (ch a) with
      | none => simp [ha] at h
      | some x =>
      cases hr : hexDigits r with
      | none => simp [ha, hr] at h
      | some vs =>
        simp only [ha, hr, Option.some.injEq] at h
        subst h
        simp [hexDigits_length r vs hr]

/-- C06: a non-empty hexadecimal text of either case is converted to the bytes it
denotes (a text of odd length as if preceded by `0`); it is refused exactly when
the destination is too small. -/
theorem ofHex_spec (s : List UInt8) (ds : List Nat) (cap : Nat) (hd : hexDigits s = some ds)
    (hne : s ≠ []) :
    ofHex s cap =
      if cap < (s.length + 1) / 2 then .ok none
      else .ok (some ((pairs (if s.length % 2 = 0 then ds else 0 :: ds)).map UInt8.ofNat)) := by
  have hl : 0 < s.length := List.length_pos_iff.mpr hne
  have h1 : ¬ s.length < 1 := by omega
  have hlen : (if s.length % 2 ≠ 0 then s.length / 2 + 1 else s.length / 2)
      = (s.length + 1) / 2 := by split <;> omega
  simp only [ofHex, h1, ↓reduceIte, hlen]
  by_cases hc : cap < (s.length + 1) / 2
  · simp [hc]
  · simp only [hc, ↓reduceIte]
    by_cases ho : s.length % 2 = 0
    · simp [ho, pairLoop_eq s ds hd]
    · simp only [ho, ne_eq, not_false_iff, ↓reduceIte]
      match s, hne, hd with
      | a :: r, _, hd =>
        simp only [hexDigits] at hd
        cases ha : hexVal (ch a) with
        | none => simp [ha] at hd
        | some x =>
        cases hr : hexDigits r with
        | none => simp [ha, hr] at hd
        | some vs =>
          simp only [ha, hr, Option.some.injEq] at hd
          subst hd
          obtain ⟨h2, h3⟩ := scanDigit_hex a x ha
          simp [h3, pairLoop_eq r vs hr, pairs]

example : ofHex [49, 97, 66] 2 = .ok (some [1, 0xab]) := by
  rw [ofHex_spec [49, 97, 66] [1, 10, 11] 2 (by decide) (by decide)]; decide

/-- The text written for a byte array. -/
theorem toHex_digits : ∀ (l : List UInt8),
    hexDigits (l.flatMap fun (b : UInt8) => [digit (b >>> (4 : UInt8)), digit (b &&& (0x0f : UInt8))])
      = some (l.flatMap fun (b : UInt8) => [b.toNat / 16, b.toNat % 16])
  | [] => rfl
  | b :: r => by
      have key : ∀ b : UInt8, hexVal (ch (digit (b >>> 4))) = some (b.toNat / 16) ∧
          hexVal (ch (digit (b &&& 0x0f))) = some (b.toNat % 16) := by
        apply forall_u8; decide +kernel
      obtain ⟨h1, h2⟩ := key b
      simp [hexDigits, h1, h2, toHex_digits r]

theorem pairs_nib : ∀ (l : List UInt8),
    (pairs (l.flatMap fun (b : UInt8) => [b.toNat / 16, b.toNat % 16])).map UInt8.ofNat = l
  | [] => rfl
  | b :: r => by
      have : 16 * (b.toNat / 16) + b.toNat % 16 = b.toNat := by omega
      simp only [List.flatMap_cons, List.cons_append, List.nil_append, pairs, List.map_cons,
        pairs_nib r, this]
      simp

/-- C06: the conversion to text succeeds exactly with room for two characters per
byte and a terminator, and the text has two digits per byte. -/
theorem toHex_spec (l : List UInt8) (cap : Nat) :
    (toHex l cap = none ↔ cap ≤ 2 * l.length) ∧
    ∀ s, toHex l cap = some s → s.length = 2 * l.length := by
  unfold toHex
  constructor
  · split <;> simp <;> omega
  · intro s hs
    split at hs
    · cases hs
    · cases hs
      induction l with
      | nil => rfl
      | cons a l ih => simp_all [List.length_flatMap]; omega

example : toHex [0xde, 0xad] 4 = none := ((toHex_spec [0xde, 0xad] 4).1).mpr (by decide)

/-- C06: converting a non-empty byte array to text and back returns it. -/
theorem ofHex_toHex (l s : List UInt8) (cap cap' : Nat) (hne : l ≠ [])
    (h : toHex l cap = some s) (hc : l.length ≤ cap') :
    ofHex s cap' = .ok (some l) := by
  have hlen := (toHex_spec l cap).2 s h
  unfold toHex at h
  split at h
  · cases h
  · cases h
    have hl : 0 < l.length := List.length_pos_iff.mpr hne
    rw [ofHex_spec _ _ cap' (toHex_digits l) (by intro h0; rw [h0] at hlen; simp at hlen; omega)]
    rw [if_neg (by rw [hlen]; omega), if_pos (by rw [hlen]; omega), pairs_nib]

example : ofHex [100, 101, 97, 100] 2 = .ok (some [0xde, 0xad]) :=
  ofHex_toHex [0xde, 0xad] _ 5 2 (by decide) (by decide) (by decide)

/-- C06 (boundary): the empty array is written as the empty text, which the
reverse conversion refuses. -/
theorem empty_not_roundtrip : toHex [] 1 = some [] ∧ ofHex [] 10 = .ok none := by decide

end Verif.Hex
