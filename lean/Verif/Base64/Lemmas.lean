import Verif.Base64.Model
import Verif.Base64.Spec
/-! Helper lemmas for Base64. -/
namespace Verif.Base64
open Spec

/-- Which RFC 4648 table an encoding stands for. -/
def isUrl : Encoding → Bool
  | .std => false
  | .url => true

theorem bitsN_length (k v : Nat) : (bitsN k v).length = k := by simp [bitsN]

theorem bitsN_getElem (k v i : Nat) (h : i < (bitsN k v).length) :
    (bitsN k v)[i] = v.testBit (k - 1 - i) := by simp [bitsN]

theorem bitsN_append (a b x y : Nat) (hy : y < 2 ^ b) :
    bitsN (a + b) (x * 2 ^ b + y) = bitsN a x ++ bitsN b y := by
  apply List.ext_getElem
  · simp [bitsN_length]
  · intro i h1 h2
    simp only [bitsN_length] at h1
    rw [bitsN_getElem, List.getElem_append, Nat.mul_comm x, Nat.testBit_two_pow_mul_add _ hy]
    by_cases h : i < a
    · rw [if_neg (by omega), dif_pos (by rw [bitsN_length]; exact h), bitsN_getElem]
      congr 1; omega
    · rw [if_pos (by omega), dif_neg (by rw [bitsN_length]; exact h), bitsN_getElem, bitsN_length]
      congr 1; omega

theorem bitsN_inj (k v w : Nat) (hv : v < 2 ^ k) (hw : w < 2 ^ k) (h : bitsN k v = bitsN k w) :
    v = w := by
  apply Nat.eq_of_testBit_eq
  intro i
  by_cases hi : i < k
  · have h1 : (bitsN k v)[k - 1 - i]'(by rw [bitsN_length]; omega)
        = (bitsN k w)[k - 1 - i]'(by rw [bitsN_length]; omega) := by simp [h]
    rw [bitsN_getElem, bitsN_getElem] at h1
    have : k - 1 - (k - 1 - i) = i := by omega
    rwa [this] at h1
  · rw [Nat.testBit_lt_two_pow (Nat.lt_of_lt_of_le hv (Nat.pow_le_pow_right (by omega) (by omega))),
      Nat.testBit_lt_two_pow (Nat.lt_of_lt_of_le hw (Nat.pow_le_pow_right (by omega) (by omega)))]

theorem bitsN_zero (k : Nat) : bitsN k 0 = List.replicate k false := by
  apply List.ext_getElem <;> simp [bitsN]

/-! ### Table facts -/

theorem shr2 : ∀ b : UInt8, (b >>> 2) = UInt8.ofNat (b.toNat / 4) := by
  apply forall_u8; decide +kernel
theorem shr4 : ∀ b : UInt8, (b >>> 4) = UInt8.ofNat (b.toNat / 16) := by
  apply forall_u8; decide +kernel
theorem shr6 : ∀ b : UInt8, (b >>> 6) = UInt8.ofNat (b.toNat / 64) := by
  apply forall_u8; decide +kernel
theorem shl4m : ∀ b : UInt8, ((b <<< 4) &&& (0x30 : UInt8)) = UInt8.ofNat (b.toNat % 4 * 16) := by
  apply forall_u8; decide +kernel
theorem shl2m : ∀ b : UInt8, ((b <<< 2) &&& (0x3D : UInt8)) = UInt8.ofNat (b.toNat % 16 * 4) := by
  apply forall_u8; decide +kernel
theorem and3f : ∀ b : UInt8, (b &&& 0x3F) = UInt8.ofNat (b.toNat % 64) := by
  apply forall_u8; decide +kernel
theorem shl2d : ∀ v < 64, ((UInt8.ofNat v <<< 2) &&& (0xFD : UInt8)) = UInt8.ofNat (v * 4) := by
  decide +kernel
theorem shl4d : ∀ v < 64, ((UInt8.ofNat v <<< 4) &&& (0xF0 : UInt8)) = UInt8.ofNat (v % 16 * 16) := by
  decide +kernel
theorem shl6d : ∀ v < 64, ((UInt8.ofNat v <<< 6) &&& (0xD0 : UInt8)) = UInt8.ofNat (v % 4 * 64) := by
  decide +kernel
theorem or16 : ∀ x < 16, ∀ y < 16,
    (UInt8.ofNat (x * 16) ||| UInt8.ofNat y) = UInt8.ofNat (x * 16 + y) := by decide +kernel
theorem or4 : ∀ x < 64, ∀ y < 4,
    (UInt8.ofNat (x * 4) ||| UInt8.ofNat y) = UInt8.ofNat (x * 4 + y) := by decide +kernel
theorem or64 : ∀ x < 4, ∀ y < 64,
    (UInt8.ofNat (x * 64) ||| UInt8.ofNat y) = UInt8.ofNat (x * 64 + y) := by decide +kernel

theorem alphabet_get (e : Encoding) : ∀ v < 64,
    Out.get (alphabet e) v = .ok (code (alphaChar (isUrl e) v)) := by
  cases e <;> decide +kernel

theorem decodeChar_code (e : Encoding) : ∀ v < 64,
    decodeChar e (code (alphaChar (isUrl e) v)) = some (UInt8.ofNat v) := by
  cases e <;> decide +kernel

theorem code_ne_pad (e : Encoding) : ∀ v < 64, code (alphaChar (isUrl e) v) ≠ 61 := by
  cases e <;> decide +kernel

theorem decodeChar_some (e : Encoding) : ∀ c v : UInt8, decodeChar e c = some v →
    v.toNat < 64 ∧ c = code (alphaChar (isUrl e) v.toNat) := by
  have : ∀ c : UInt8, ∀ v ∈ decodeChar e c,
      v.toNat < 64 ∧ c = code (alphaChar (isUrl e) v.toNat) := by
    apply forall_u8; cases e <;> decide +kernel
  intro c v h
  exact this c v h

theorem toNat_ofNat_lt (n : Nat) (h : n < 256) : (UInt8.ofNat n).toNat = n := by
  simp [UInt8.toNat_ofNat']; omega

/-! ### Encoder -/

/-- The sextets the encoder produces, group by group. -/
def encVals : List UInt8 → List Nat
  | [] => []
  | [a] => [a.toNat / 4, a.toNat % 4 * 16]
  | [a, b] => [a.toNat / 4, a.toNat % 4 * 16 + b.toNat / 16, b.toNat % 16 * 4]
  | a :: b :: c :: r =>
    (a.toNat / 4) :: (a.toNat % 4 * 16 + b.toNat / 16) :: (b.toNat % 16 * 4 + c.toNat / 64)
      :: (c.toNat % 64) :: encVals r

theorem encVals_lt : ∀ l : List UInt8, ∀ v ∈ encVals l, v < 64
  | [] => by simp [encVals]
  | [a] => by
      have := a.toNat_lt
      simp only [encVals, List.mem_cons, List.not_mem_nil, or_false]
      rintro v (rfl | rfl) <;> omega
  | [a, b] => by
      have := a.toNat_lt; have := b.toNat_lt
      simp only [encVals, List.mem_cons, List.not_mem_nil, or_false]
      rintro v (rfl | rfl | rfl) <;> omega
  | a :: b :: c :: r => by
      have := a.toNat_lt; have := b.toNat_lt; have := c.toNat_lt
      have ih := encVals_lt r
      simp only [encVals, List.mem_cons]
      rintro v (rfl | rfl | rfl | rfl | h)
      · omega
      · omega
      · omega
      · omega
      · exact ih v h

theorem encVals_length : ∀ l : List UInt8, (encVals l).length = (l.length * 4 + 2) / 3
  | [] => by simp [encVals]
  | [a] => by simp [encVals]
  | [a, b] => by simp [encVals]
  | a :: b :: c :: r => by
      have ih := encVals_length r
      simp only [encVals, List.length_cons, ih]; omega

/-- The character of a sextet. -/
def chr (e : Encoding) (v : Nat) : UInt8 := code (alphaChar (isUrl e) v)

theorem encLoop_0 (e : Encoding) (i : Nat) (val b : UInt8) (rest : List UInt8) (h : i % 3 = 0) :
    encLoop e i val (b :: rest) = (do
      let out ← encLoop e (i + 1) (UInt8.ofNat (b.toNat % 4 * 16)) rest
      return chr e (b.toNat / 4) :: out) := by
  have := b.toNat_lt
  simp only [encLoop, h, ↓reduceIte, shr2, shl4m]
  rw [toNat_ofNat_lt _ (by omega), alphabet_get _ _ (by omega)]
  rfl

theorem encLoop_1 (e : Encoding) (i : Nat) (x : Nat) (b : UInt8) (rest : List UInt8)
    (h : i % 3 = 1) (hx : x < 4) :
    encLoop e i (UInt8.ofNat (x * 16)) (b :: rest) = (do
      let out ← encLoop e (i + 1) (UInt8.ofNat (b.toNat % 16 * 4)) rest
      return chr e (x * 16 + b.toNat / 16) :: out) := by
  have := b.toNat_lt
  have h0 : i % 3 ≠ 0 := by omega
  simp only [encLoop]
  rw [if_neg h0, if_pos h]
  simp only [shr4, shl2m]
  rw [or16 _ (by omega) _ (by omega), toNat_ofNat_lt _ (by omega), alphabet_get _ _ (by omega)]
  rfl

theorem encLoop_2 (e : Encoding) (i : Nat) (x : Nat) (b : UInt8) (rest : List UInt8)
    (h : i % 3 = 2) (hx : x < 16) :
    encLoop e i (UInt8.ofNat (x * 4)) (b :: rest) = (do
      let out ← encLoop e (i + 1) (UInt8.ofNat (b.toNat % 64)) rest
      return chr e (x * 4 + b.toNat / 64) :: chr e (b.toNat % 64) :: out) := by
  have := b.toNat_lt
  have h0 : i % 3 ≠ 0 := by omega
  have h1 : i % 3 ≠ 1 := by omega
  simp only [encLoop, h0, h1, ↓reduceIte, shr6, and3f]
  rw [or4 _ (by omega) _ (by omega), toNat_ofNat_lt _ (by omega), toNat_ofNat_lt _ (by omega),
    alphabet_get _ _ (by omega), alphabet_get _ _ (by omega)]
  rfl

theorem encLoop_nil (e : Encoding) (i : Nat) (x : Nat) (h : i % 3 ≠ 0) (hx : x < 64) :
    encLoop e i (UInt8.ofNat x) [] = .ok [chr e x] := by
  simp only [encLoop, h, ne_eq, not_false_iff, ↓reduceIte]
  rw [toNat_ofNat_lt _ (by omega), alphabet_get _ _ hx]
  rfl

theorem encLoop_eq (e : Encoding) : ∀ (l : List UInt8) (i : Nat) (val : UInt8), i % 3 = 0 →
    encLoop e i val l = .ok ((encVals l).map (chr e))
  | [], i, val, h => by simp [encLoop, encVals, h]
  | [a], i, val, h => by
      rw [encLoop_0 _ _ _ _ _ h, encLoop_nil _ _ _ (by omega) (by omega)]
      simp [encVals]
  | [a, b], i, val, h => by
      rw [encLoop_0 _ _ _ _ _ h, encLoop_1 _ _ _ _ _ (by omega) (by omega),
        encLoop_nil _ _ _ (by omega) (by omega)]
      simp [encVals]
  | a :: b :: c :: r, i, val, h => by
      rw [encLoop_0 _ _ _ _ _ h, encLoop_1 _ _ _ _ _ (by omega) (by omega),
        encLoop_2 _ _ _ _ _ (by omega) (by omega), encLoop_eq e r _ _ (by omega)]
      simp [encVals]

/-- Number of zero bits that complete the last sextet. -/
def zeros (n : Nat) : Nat := if n % 3 = 1 then 4 else if n % 3 = 2 then 2 else 0

/-- Splitting a number into quotient and remainder splits its bits. -/
theorem bitsN_split (k a b v : Nat) (h : k = a + b) :
    bitsN k v = bitsN a (v / 2 ^ b) ++ bitsN b (v % 2 ^ b) := by
  subst h
  rw [← bitsN_append _ _ _ _ (Nat.mod_lt _ (Nat.two_pow_pos b))]
  congr 1
  rw [Nat.mul_comm]; exact (Nat.div_add_mod v (2 ^ b)).symm

theorem encVals_bits : ∀ l : List UInt8,
    sextetStream (encVals l) = byteStream l ++ List.replicate (zeros l.length) false
  | [] => by simp [encVals, sextetStream, byteStream, zeros]
  | [a] => by
      simp only [encVals, sextetStream, byteStream, List.flatMap_cons, List.flatMap_nil,
        List.length_cons, List.length_nil, zeros]
      rw [bitsN_split 8 6 2 a.toNat rfl]
      have := bitsN_append 2 4 (a.toNat % 4) 0 (by omega)
      simp only [Nat.add_zero, bitsN_zero] at this
      simp [this]
  | [a, b] => by
      have := a.toNat_lt; have := b.toNat_lt
      simp only [encVals, sextetStream, byteStream, List.flatMap_cons, List.flatMap_nil,
        List.length_cons, List.length_nil, zeros]
      rw [bitsN_split 8 6 2 a.toNat rfl, bitsN_split 8 4 4 b.toNat rfl]
      have e1 := bitsN_append 2 4 (a.toNat % 4) (b.toNat / 16) (by omega)
      have e2 := bitsN_append 4 2 (b.toNat % 16) 0 (by omega)
      simp only [Nat.add_zero, bitsN_zero] at e2
      simp at e1 e2
      simp [e1, e2]
  | a :: b :: c :: r => by
      have := a.toNat_lt; have := b.toNat_lt; have := c.toNat_lt
      have ih := encVals_bits r
      have hz : zeros (a :: b :: c :: r).length = zeros r.length := by
        simp only [zeros, List.length_cons]
        have : (r.length + 1 + 1 + 1) % 3 = r.length % 3 := by omega
        simp only [this]
      rw [hz]
      simp only [encVals, sextetStream, byteStream, List.flatMap_cons] at ih ⊢
      rw [ih]
      rw [bitsN_split 8 6 2 a.toNat rfl, bitsN_split 8 4 4 b.toNat rfl,
        bitsN_split 8 2 6 c.toNat rfl]
      have e1 := bitsN_append 2 4 (a.toNat % 4) (b.toNat / 16) (by omega)
      have e2 := bitsN_append 4 2 (b.toNat % 16) (c.toNat / 64) (by omega)
      simp at e1 e2
      simp [e1, e2]

/-! ### Decoder -/

/-- The bytes the decoder assembles from sextets. -/
def decVals : List Nat → List UInt8
  | [] => []
  | [_] => []
  | [a, b] => [UInt8.ofNat (a * 4 + b / 16)]
  | [a, b, c] => [UInt8.ofNat (a * 4 + b / 16), UInt8.ofNat (b % 16 * 16 + c / 4)]
  | a :: b :: c :: d :: r =>
    UInt8.ofNat (a * 4 + b / 16) :: UInt8.ofNat (b % 16 * 16 + c / 4)
      :: UInt8.ofNat (c % 4 * 64 + d) :: decVals r

theorem decVals_length : ∀ l : List Nat, (decVals l).length = l.length * 3 / 4
  | [] => by simp [decVals]
  | [_] => by simp [decVals]
  | [_, _] => by simp [decVals]
  | [_, _, _] => by simp [decVals]
  | a :: b :: c :: d :: r => by
      have ih := decVals_length r
      simp only [decVals, List.length_cons, ih]; omega

theorem decVals_bits : ∀ l : List Nat, (∀ v ∈ l, v < 64) → l.length % 4 ≠ 1 →
    ∃ rest, sextetStream l = byteStream (decVals l) ++ rest ∧ rest.length < 6
  | [], _, _ => ⟨[], by simp [decVals, sextetStream, byteStream]⟩
  | [_], _, h => by simp at h
  | [a, b], hv, _ => by
      have ha := hv a (by simp); have hb := hv b (by simp)
      refine ⟨bitsN 4 (b % 16), ?_, by simp [bitsN_length]⟩
      simp only [decVals, sextetStream, byteStream, List.flatMap_cons, List.flatMap_nil]
      rw [toNat_ofNat_lt _ (by omega), bitsN_split 6 2 4 b rfl]
      have e1 := bitsN_append 6 2 a (b / 16) (by omega)
      simp at e1
      simp [e1]
  | [a, b, c], hv, _ => by
      have ha := hv a (by simp); have hb := hv b (by simp); have hc := hv c (by simp)
      refine ⟨bitsN 2 (c % 4), ?_, by simp [bitsN_length]⟩
      simp only [decVals, sextetStream, byteStream, List.flatMap_cons, List.flatMap_nil]
      rw [toNat_ofNat_lt _ (by omega), toNat_ofNat_lt _ (by omega),
        bitsN_split 6 2 4 b rfl, bitsN_split 6 4 2 c rfl]
      have e1 := bitsN_append 6 2 a (b / 16) (by omega)
      have e2 := bitsN_append 4 4 (b % 16) (c / 4) (by omega)
      simp at e1 e2
      simp [e1, e2]
  | a :: b :: c :: d :: r, hv, hl => by
      have ha := hv a (by simp); have hb := hv b (by simp); have hc := hv c (by simp)
      have hd := hv d (by simp)
      obtain ⟨rest, ih, hr⟩ := decVals_bits r (fun v h => hv v (by simp [h]))
        (by simp only [List.length_cons] at hl; omega)
      refine ⟨rest, ?_, hr⟩
      simp only [decVals, sextetStream, byteStream, List.flatMap_cons] at ih ⊢
      rw [ih, toNat_ofNat_lt _ (by omega), toNat_ofNat_lt _ (by omega),
        toNat_ofNat_lt _ (by omega),
        bitsN_split 6 2 4 b rfl, bitsN_split 6 4 2 c rfl]
      have e1 := bitsN_append 6 2 a (b / 16) (by omega)
      have e2 := bitsN_append 4 4 (b % 16) (c / 4) (by omega)
      have e3 := bitsN_append 2 6 (c % 4) d (by omega)
      simp at e1 e2 e3
      simp [e1, e2, e3]

/-- Padding characters at the end stop the decoder. -/
theorem decLoop_pad (e : Encoding) (n i : Nat) (val : UInt8) (k : Nat) (hk : k < 3)
    (hn : n = i + k) :
    decLoop e true n i val (List.replicate k 61) = .ok (some []) := by
  match k, hk with
  | 0, _ => simp [decLoop]
  | 1, _ =>
    simp only [List.replicate, decLoop]
    have h1 : ¬ i + 2 < n := by omega
    have h2 : ¬ i + 2 = n := by omega
    simp [h1, h2]
  | 2, _ =>
    simp only [List.replicate, decLoop]
    have h1 : ¬ i + 2 < n := by omega
    have h2 : i + 2 = n := by omega
    simp [h2]

theorem decLoop_tail (e : Encoding) (p : Bool) (n i : Nat) (val : UInt8) (k : Nat) (hk : k < 3)
    (hp : p = false → k = 0) (hn : n = i + k) :
    decLoop e p n i val (List.replicate k 61) = .ok (some []) := by
  cases p with
  | true => exact decLoop_pad e n i val k hk hn
  | false => simp [hp rfl, decLoop]

theorem decLoop_0 (e : Encoding) (p : Bool) (n i : Nat) (val : UInt8) (v : Nat) (hv : v < 64)
    (rest : List UInt8) (h : i % 4 = 0) :
    decLoop e p n i val (chr e v :: rest) = decLoop e p n (i + 1) (UInt8.ofNat (v * 4)) rest := by
  have h' : ¬ (p && chr e v == 61) = true := by simp [chr, code_ne_pad e v hv]
  rw [decLoop.eq_def]
  dsimp only
  rw [if_neg h']
  simp only [chr, decodeChar_code e v hv, h, ↓reduceIte, shl2d v hv]

theorem decLoop_1 (e : Encoding) (p : Bool) (n i x : Nat) (hx : x < 64) (v : Nat) (hv : v < 64)
    (rest : List UInt8) (h : i % 4 = 1) :
    decLoop e p n i (UInt8.ofNat (x * 4)) (chr e v :: rest) = (do
      let r ← decLoop e p n (i + 1) (UInt8.ofNat (v % 16 * 16)) rest
      return r.map (UInt8.ofNat (x * 4 + v / 16) :: ·)) := by
  have h' : ¬ (p && chr e v == 61) = true := by simp [chr, code_ne_pad e v hv]
  have h0 : i % 4 ≠ 0 := by omega
  rw [decLoop.eq_def]
  dsimp only
  rw [if_neg h']
  simp only [chr, decodeChar_code e v hv]
  rw [if_neg h0, if_pos h]
  simp only [ shl4d v hv, shr4]
  rw [toNat_ofNat_lt _ (by omega), or4 _ (by omega) _ (by omega)]

theorem decLoop_2 (e : Encoding) (p : Bool) (n i x : Nat) (hx : x < 16) (v : Nat) (hv : v < 64)
    (rest : List UInt8) (h : i % 4 = 2) :
    decLoop e p n i (UInt8.ofNat (x * 16)) (chr e v :: rest) = (do
      let r ← decLoop e p n (i + 1) (UInt8.ofNat (v % 4 * 64)) rest
      return r.map (UInt8.ofNat (x * 16 + v / 4) :: ·)) := by
  have h' : ¬ (p && chr e v == 61) = true := by simp [chr, code_ne_pad e v hv]
  have h0 : i % 4 ≠ 0 := by omega
  have h1 : i % 4 ≠ 1 := by omega
  rw [decLoop.eq_def]
  dsimp only
  rw [if_neg h']
  simp only [chr, decodeChar_code e v hv]
  rw [if_neg h0, if_neg h1, if_pos h]
  simp only [ shl6d v hv, shr2]
  rw [toNat_ofNat_lt _ (by omega), or16 _ (by omega) _ (by omega)]

theorem decLoop_3 (e : Encoding) (p : Bool) (n i x : Nat) (hx : x < 4) (v : Nat) (hv : v < 64)
    (rest : List UInt8) (h : i % 4 = 3) :
    decLoop e p n i (UInt8.ofNat (x * 64)) (chr e v :: rest) = (do
      let r ← decLoop e p n (i + 1) (UInt8.ofNat (x * 64)) rest
      return r.map (UInt8.ofNat (x * 64 + v) :: ·)) := by
  have h' : ¬ (p && chr e v == 61) = true := by simp [chr, code_ne_pad e v hv]
  have h0 : i % 4 ≠ 0 := by omega
  have h1 : i % 4 ≠ 1 := by omega
  have h2 : i % 4 ≠ 2 := by omega
  rw [decLoop.eq_def]
  dsimp only
  rw [if_neg h']
  simp only [chr, decodeChar_code e v hv]
  rw [if_neg h0, if_neg h1, if_neg h2]
  rw [or64 _ (by omega) _ (by omega)]

theorem decLoop_complete (e : Encoding) (p : Bool) (k : Nat) (hk : k < 3)
    (hp : p = false → k = 0) : ∀ (vs : List Nat) (n i : Nat) (val : UInt8),
    (∀ v ∈ vs, v < 64) → i % 4 = 0 → n = i + vs.length + k →
    decLoop e p n i val (vs.map (chr e) ++ List.replicate k 61) = .ok (some (decVals vs))
  | [], n, i, val, _, _, hn => by
      simp only [List.map_nil, List.nil_append, decVals]
      exact decLoop_tail e p n i val k hk hp (by simpa using hn)
  | [a], n, i, val, hv, hi, hn => by
      simp only [List.length_cons, List.length_nil] at hn
      simp only [List.map_cons, List.map_nil, List.cons_append, List.nil_append, decVals]
      rw [decLoop_0 _ _ _ _ _ a (hv a (by simp)) _ hi]
      exact decLoop_tail e p n _ _ k hk hp (by omega)
  | [a, b], n, i, val, hv, hi, hn => by
      have ha := hv a (by simp); have hb := hv b (by simp)
      simp only [List.length_cons, List.length_nil] at hn
      simp only [List.map_cons, List.map_nil, List.cons_append, List.nil_append, decVals]
      rw [decLoop_0 _ _ _ _ _ a ha _ hi, decLoop_1 _ _ _ _ _ ha b hb _ (by omega),
        decLoop_tail e p n _ _ k hk hp (by omega)]
      rfl
  | [a, b, c], n, i, val, hv, hi, hn => by
      have ha := hv a (by simp); have hb := hv b (by simp); have hc := hv c (by simp)
      simp only [List.length_cons, List.length_nil] at hn
      simp only [List.map_cons, List.map_nil, List.cons_append, List.nil_append, decVals]
      rw [decLoop_0 _ _ _ _ _ a ha _ hi, decLoop_1 _ _ _ _ _ ha b hb _ (by omega),
        decLoop_2 _ _ _ _ _ (by omega) c hc _ (by omega),
        decLoop_tail e p n _ _ k hk hp (by omega)]
      rfl
  | a :: b :: c :: d :: r, n, i, val, hv, hi, hn => by
      have ha := hv a (by simp); have hb := hv b (by simp); have hc := hv c (by simp)
      have hd := hv d (by simp)
      simp only [List.length_cons] at hn
      simp only [List.map_cons, List.cons_append, decVals]
      rw [decLoop_0 _ _ _ _ _ a ha _ hi, decLoop_1 _ _ _ _ _ ha b hb _ (by omega),
        decLoop_2 _ _ _ _ _ (by omega) c hc _ (by omega),
        decLoop_3 _ _ _ _ _ (by omega) d hd _ (by omega)]
      rw [decLoop_complete e p k hk hp r n (i + 1 + 1 + 1 + 1) _ (fun v h => hv v (by simp [h]))
        (by omega) (by omega)]
      rfl

/-- Any accepted text consists of alphabet characters followed by at most two
padding characters that end the text. -/
theorem decLoop_sound_form (e : Encoding) (p : Bool) (n : Nat) :
    ∀ (text : List UInt8) (i : Nat) (val : UInt8) (out : List UInt8),
    n = i + text.length → decLoop e p n i val text = .ok (some out) →
    ∃ (vs : List Nat) (k : Nat), (∀ v ∈ vs, v < 64) ∧ k < 3 ∧ (p = false → k = 0) ∧
      text = vs.map (chr e) ++ List.replicate k 61
  | [], i, val, out, hn, h => ⟨[], 0, by simp⟩
  | c :: rest, i, val, out, hn, h => by
      simp only [List.length_cons] at hn
      by_cases hc : (p && c == 61) = true
      · simp only [decLoop, hc, ↓reduceIte] at h
        simp only [Bool.and_eq_true, beq_iff_eq] at hc
        obtain ⟨hp, rfl⟩ := hc
        split at h
        · simp at h
        · split at h
          · rename_i h1 h2
            match rest, hn with
            | [], hn => simp at h
            | d :: rest', hn =>
              simp only [List.length_cons] at hn
              have : rest' = [] := by
                apply List.eq_nil_of_length_eq_zero; omega
              subst this
              by_cases hd : d = 61
              · subst hd
                exact ⟨[], 2, by simp [hp, List.replicate]⟩
              · simp [hd] at h
          · rename_i h1 h2
            have : rest = [] := by
              apply List.eq_nil_of_length_eq_zero; omega
            subst this
            exact ⟨[], 1, by simp [hp, List.replicate]⟩
      · simp only [decLoop, hc] at h
        simp only [Bool.false_eq_true, ↓reduceIte] at h
        cases hd : decodeChar e c with
        | none => simp [hd] at h
        | some v =>
          obtain ⟨hv, hcv⟩ := decodeChar_some e c v hd
          simp only [hd] at h
          have key : ∃ (val' : UInt8) (out' : List UInt8),
              decLoop e p n (i + 1) val' rest = .ok (some out') := by
            split at h
            · exact ⟨_, _, h⟩
            · split at h
              · cases hr : decLoop e p n (i + 1) (v <<< 4 &&& 0xF0) rest with
                | ub => simp [hr] at h
                | ok r => cases r with
                  | none => simp [hr] at h
                  | some o => exact ⟨_, _, hr⟩
              · split at h
                · cases hr : decLoop e p n (i + 1) (v <<< 6 &&& 0xD0) rest with
                  | ub => simp [hr] at h
                  | ok r => cases r with
                    | none => simp [hr] at h
                    | some o => exact ⟨_, _, hr⟩
                · cases hr : decLoop e p n (i + 1) val rest with
                  | ub => simp [hr] at h
                  | ok r => cases r with
                    | none => simp [hr] at h
                    | some o => exact ⟨_, _, hr⟩
          obtain ⟨val', out', hk⟩ := key
          obtain ⟨vs, k, h1, h2, h3, h4⟩ :=
            decLoop_sound_form e p n rest (i + 1) val' out' (by omega) hk
          refine ⟨v.toNat :: vs, k, ?_, h2, h3, ?_⟩
          · simp only [List.mem_cons]
            rintro w (rfl | hw)
            · exact hv
            · exact h1 w hw
          · simp only [List.map_cons, List.cons_append, ← h4, chr, ← hcv]

/-- The decoding loop never runs into undefined behaviour. -/
theorem decLoop_no_ub (e : Encoding) (p : Bool) (n : Nat) :
    ∀ (text : List UInt8) (i : Nat) (val : UInt8),
    n = i + text.length → decLoop e p n i val text ≠ .ub
  | [], i, val, hn => by simp [decLoop]
  | c :: rest, i, val, hn => by
      simp only [List.length_cons] at hn
      have ih : ∀ val', decLoop e p n (i + 1) val' rest ≠ .ub := fun val' =>
        decLoop_no_ub e p n rest (i + 1) val' (by omega)
      have ih2 : ∀ val' (f : Option (List UInt8) → Option (List UInt8)),
          (do let r ← decLoop e p n (i + 1) val' rest; pure (f r) : Out _) ≠ .ub := by
        intro val' f h
        cases hr : decLoop e p n (i + 1) val' rest with
        | ub => exact ih _ hr
        | ok r => simp [hr] at h
      simp only [decLoop]
      split
      · split
        · simp
        · split
          · split
            · rename_i h1 h2; simp only [List.length_nil] at hn; omega
            · split <;> simp
          · simp
      · split
        · simp
        · split
          · exact ih _
          · split
            · exact ih2 _ _
            · split
              · exact ih2 _ _
              · exact ih2 _ _

/-! ### In-place decoding -/

theorem get_ok {α : Type} (l : List α) (i : Nat) (a : α) (h : l[i]? = some a) :
    Out.get l i = .ok a := by simp [Out.get, h]

/-- Writing `out` into `buf` from position `j`. -/
def overwrite (buf : List UInt8) (j : Nat) (out : List UInt8) : List UInt8 :=
  buf.take j ++ out ++ buf.drop (j + out.length)

theorem overwrite_nil (buf : List UInt8) (j : Nat) : overwrite buf j [] = buf := by
  simp [overwrite]

theorem overwrite_set (buf : List UInt8) (j : Nat) (x : UInt8) (out : List UInt8)
    (h : j < buf.length) :
    overwrite (buf.set j x) (j + 1) out = overwrite buf j (x :: out) := by
  unfold overwrite
  have h1 : (buf.set j x).take (j + 1) = buf.take j ++ [x] := by
    rw [List.take_add_one, List.take_set_of_le (Nat.le_refl j)]
    simp [h]
  have h2 : (buf.set j x).drop (j + 1 + out.length) = buf.drop (j + (x :: out).length) := by
    rw [List.drop_set_of_lt (by omega)]
    congr 1; simp; omega
  rw [h1, h2]; simp

theorem drop_set_eq (buf : List UInt8) (i j : Nat) (x : UInt8) (h : j < i) :
    (buf.set j x).drop i = buf.drop i := List.drop_set_of_lt h

/-- Result of the in-place loop in terms of the loop with separate buffers. -/
def ipResult (buf : List UInt8) (j : Nat) :
    Out (Option (List UInt8)) → Out (Option (Nat × List UInt8))
  | .ub => .ub
  | .ok none => .ok none
  | .ok (some out) => .ok (some (j + out.length, overwrite buf j out))

theorem ipResult_bind (buf : List UInt8) (j : Nat) (x : UInt8) (r : Out (Option (List UInt8)))
    (h : j < buf.length) :
    ipResult buf j (do let o ← r; return o.map (x :: ·)) = ipResult (buf.set j x) (j + 1) r := by
  cases r with
  | ub => rfl
  | ok o => cases o with
    | none => rfl
    | some o =>
      simp only [Out.ok_bind, Option.map_some, Out.pure_eq, ipResult, List.length_cons]
      rw [overwrite_set _ _ _ _ h]
      congr 3; omega

theorem ipLoop_eq (e : Encoding) (n : Nat) : ∀ (m j : Nat) (valC : UInt8) (buf : List UInt8),
    buf.length = n → m ≤ n → j = (n - m) * 3 / 4 →
    ipLoop e n m j valC buf = ipResult buf j (decLoop e true n (n - m) valC (buf.drop (n - m)))
  | 0, j, valC, buf, hl, _, hj => by
      rw [Nat.sub_zero, ← hl, List.drop_length]
      simp [ipLoop, decLoop, ipResult, overwrite_nil]
  | m + 1, j, valC, buf, hl, hm, hj => by
      have hi : n - (m + 1) < buf.length := by omega
      have hd : buf.drop (n - (m + 1)) = buf[n - (m + 1)] :: buf.drop (n - m) := by
        rw [List.drop_eq_getElem_cons hi]; congr 2; omega
      have hnm : n - (m + 1) + 1 = n - m := by omega
      rw [hd]
      generalize hc : buf[n - (m + 1)] = c
      rw [ipLoop, get_ok buf _ c (by rw [List.getElem?_eq_getElem hi, hc]), Out.ok_bind,
        decLoop.eq_def]
      dsimp only
      by_cases hp : c = 61
      · subst hp
        simp only [beq_self_eq_true, Bool.and_self, ↓reduceIte]
        by_cases h1 : n - (m + 1) + 2 < n
        · simp only [h1, ↓reduceIte]; rfl
        · simp only [h1, ↓reduceIte]
          by_cases h2 : n - (m + 1) + 2 = n
          · simp only [h2, ↓reduceIte]
            have hi2 : n - m < buf.length := by omega
            rw [List.drop_eq_getElem_cons hi2]
            rw [get_ok buf _ (buf[n - m]) (by rw [hnm, List.getElem?_eq_getElem hi2])]
            simp only [Out.ok_bind]
            by_cases h3 : buf[n - m] = 61
            · simp [h3, ipResult, overwrite_nil]
            · simp [h3, ipResult]
          · simp only [h2, ↓reduceIte, ipResult, overwrite_nil, List.length_nil, Nat.add_zero]
            rfl
      · have hp' : (c == 61) = false := by simp [hp]
        simp only [hp', Bool.and_false, Bool.false_eq_true, ↓reduceIte]
        cases hv : decodeChar e c with
        | none => rfl
        | some v =>
          dsimp only
          by_cases h0 : (n - (m + 1)) % 4 = 0
          · simp only [h0, ↓reduceIte, hnm]
            exact ipLoop_eq e n m j _ buf hl (by omega) (by omega)
          · rw [if_neg h0, if_neg h0]
            have hj' : j < n - (m + 1) := by
              clear hd hnm hi hc
              generalize n - (m + 1) = i at *
              have : 0 < i := Nat.pos_of_ne_zero (by rintro rfl; simp at h0)
              omega
            have hjl : j < buf.length := by omega
            by_cases h1 : (n - (m + 1)) % 4 = 1
            · rw [if_pos h1, if_pos h1, ipResult_bind _ _ _ _ hjl]
              simp only [store, hjl, ↓reduceIte, Out.ok_bind, hnm]
              rw [ipLoop_eq e n m (j + 1) _ _ (by simp [hl]) (by omega) (by omega),
                drop_set_eq _ _ _ _ (by omega)]
            · rw [if_neg h1, if_neg h1]
              by_cases h2 : (n - (m + 1)) % 4 = 2
              · rw [if_pos h2, if_pos h2, ipResult_bind _ _ _ _ hjl]
                simp only [store, hjl, ↓reduceIte, Out.ok_bind, hnm]
                rw [ipLoop_eq e n m (j + 1) _ _ (by simp [hl]) (by omega) (by omega),
                  drop_set_eq _ _ _ _ (by omega)]
              · rw [if_neg h2, if_neg h2, ipResult_bind _ _ _ _ hjl]
                simp only [store, hjl, ↓reduceIte, Out.ok_bind, hnm]
                rw [ipLoop_eq e n m (j + 1) _ _ (by simp [hl]) (by omega) (by omega),
                  drop_set_eq _ _ _ _ (by omega)]

/-! ### Bit streams determine bytes -/

theorem byteStream_length (l : List UInt8) : (byteStream l).length = 8 * l.length := by
  induction l with
  | nil => simp [byteStream]
  | cons a l ih =>
    simp only [byteStream, List.flatMap_cons, List.length_append, bitsN_length] at ih ⊢
    simp only [ih, List.length_cons]; omega

theorem sextetStream_length (l : List Nat) : (sextetStream l).length = 6 * l.length := by
  induction l with
  | nil => simp [sextetStream]
  | cons a l ih =>
    simp only [sextetStream, List.flatMap_cons, List.length_append, bitsN_length] at ih ⊢
    simp only [ih, List.length_cons]; omega

theorem byteStream_prefix_inj : ∀ (a b : List UInt8) (r s : List Bool),
    r.length < 8 → s.length < 8 → byteStream a ++ r = byteStream b ++ s → a = b
  | [], [], _, _, _, _, _ => rfl
  | [], b :: bs, r, s, hr, hs, h => by
      have := congrArg List.length h
      simp only [List.length_append, byteStream_length, List.length_cons, List.length_nil] at this
      omega
  | a :: as, [], r, s, hr, hs, h => by
      have := congrArg List.length h
      simp only [List.length_append, byteStream_length, List.length_cons, List.length_nil] at this
      omega
  | a :: as, b :: bs, r, s, hr, hs, h => by
      simp only [byteStream, List.flatMap_cons, List.append_assoc] at h
      obtain ⟨h1, h2⟩ := List.append_inj h (by simp [bitsN_length])
      have hab : a = b := by
        apply UInt8.toNat_inj.mp
        exact bitsN_inj 8 _ _ (by have := a.toNat_lt; omega) (by have := b.toNat_lt; omega) h1
      rw [hab, byteStream_prefix_inj as bs r s hr hs h2]

end Verif.Base64
