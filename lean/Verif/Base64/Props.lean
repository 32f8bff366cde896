import Verif.Base64.Lemmas
/-!
Property theorems for `api/oc_base64.c` (C01, C02).
-/
namespace Verif.Base64
open Spec

theorem encodedSize_eq (n : Nat) (p : Bool) :
    encodedSize n p = if p then (n + 2) / 3 * 4 else (n * 4 + 2) / 3 := by
  cases p <;> simp only [encodedSize] <;> simp
  split <;> omega

/-- C01: encoding succeeds in a large enough buffer, stores exactly the announced
number of bytes, and the text is the RFC 4648 encoding of the input. -/
theorem encode_spec (e : Encoding) (p : Bool) (input : List UInt8) (cap : Nat)
    (hcap : encodedSize input.length p ≤ cap) (hint : encodedSize input.length p ≤ intMax) :
    ∃ text, encode e p input cap = .ok (some text) ∧
      text.length = encodedSize input.length p ∧ IsEncoding (isUrl e) p input text := by
  by_cases h0 : input.length = 0
  · have : input = [] := List.eq_nil_of_length_eq_zero h0
    subst this
    refine ⟨[], by simp [encode], by cases p <;> simp [encodedSize], [], 0, 0, ?_⟩
    simp [sextetStream, byteStream]
  · have hlen : (encVals input).length ≤ encodedSize input.length p := by
      rw [encVals_length, encodedSize_eq]
      cases p <;> simp <;> omega
    have hbits := encVals_bits input
    have hz : zeros input.length < 6 := by unfold zeros; split <;> (try split) <;> omega
    cases p with
    | true =>
      refine ⟨(encVals input).map (chr e) ++
        List.replicate (encodedSize input.length true - (encVals input).length) 61, ?_, ?_, ?_⟩
      · simp only [encode, h0, ↓reduceIte, Nat.not_lt.mpr hcap, Nat.not_lt.mpr hint,
          encLoop_eq e input 0 0 rfl, Out.ok_bind, List.length_map, Bool.not_true, Bool.false_and,
          Bool.false_eq_true]
        rw [if_neg]
        · rfl
        · simp only [List.length_append, List.length_map, List.length_replicate]; omega
      · simp only [List.length_append, List.length_map, List.length_replicate]; omega
      · refine ⟨encVals input, zeros input.length,
          encodedSize input.length true - (encVals input).length, encVals_lt input, hz, hbits,
          rfl, ?_⟩
        simp only [↓reduceIte]
        have := encVals_length input
        rw [encodedSize_eq] at hlen ⊢
        simp only [↓reduceIte] at hlen ⊢
        omega
    | false =>
      have hl2 : (encVals input).length = encodedSize input.length false := by
        rw [encVals_length, encodedSize_eq]; simp
      refine ⟨(encVals input).map (chr e), ?_, ?_, ?_⟩
      · simp only [encode, h0, ↓reduceIte, Nat.not_lt.mpr hcap, Nat.not_lt.mpr hint,
          encLoop_eq e input 0 0 rfl, Out.ok_bind, List.length_map, Bool.not_false, Bool.true_and,
          hl2, bne_self_eq_false, Bool.false_eq_true]
        rfl
      · simpa using hl2
      · refine ⟨encVals input, zeros input.length, 0, encVals_lt input, hz, hbits, ?_, by simp⟩
        simp [chr]

example : ∃ text, encode .std true [77, 97] 4 = .ok (some text) ∧ text.length = 4 ∧
    IsEncoding false true [77, 97] text :=
  encode_spec .std true [77, 97] 4 (by decide) (by decide)
example : encode .std true [77, 97] 4 = .ok (some [84, 87, 69, 61]) := by decide

/-- C01: a destination that is too small is refused. -/
theorem encode_too_small (e : Encoding) (p : Bool) (input : List UInt8) (cap : Nat)
    (hcap : cap < encodedSize input.length p) :
    encode e p input cap = .ok none := by
  have h0 : input.length ≠ 0 := by
    intro h; rw [h] at hcap; cases p <;> simp [encodedSize] at hcap
  simp [encode, h0, hcap]

example : encode .url false [1, 2, 3, 4] 5 = .ok none := encode_too_small _ _ _ _ (by decide)

theorem unpadded_size (n : Nat) (_h : n % 4 ≠ 1) :
    (n + (if n % 4 ≠ 0 then 4 - n % 4 else 0)) * 3 / 4 - (if n % 4 ≠ 0 then 4 - n % 4 else 0)
      = n * 3 / 4 := by
  split <;> omega

/-- The decoder's size computation on well formed text. -/
theorem decodedSize_form (e : Encoding) (p : Bool) (vs : List Nat) (k : Nat)
    (hv : ∀ v ∈ vs, v < 64) (hk : k < 3)
    (hp : if p then (vs.length + k) % 4 = 0 else k = 0 ∧ vs.length % 4 ≠ 1)
    (hi : vs.length + k ≤ intMax) :
    decodedSize (vs.map (chr e) ++ List.replicate k 61) p = .ok (some (decVals vs).length) := by
  rw [decVals_length]
  by_cases h0 : vs.length + k = 0
  · have : vs = [] := List.eq_nil_of_length_eq_zero (by omega)
    subst this
    have : k = 0 := by simpa using h0
    subst this
    simp [decodedSize]
  · have hlen : (vs.map (chr e) ++ List.replicate k 61).length = vs.length + k := by simp
    have hnp : ∀ i (h : i < vs.length),
        (vs.map (chr e) ++ List.replicate k 61)[i]? = some (chr e vs[i]) := by
      intro i h
      rw [List.getElem?_append_left (by simpa using h)]
      simp [h]
    have hpad : ∀ i, vs.length ≤ i → i < vs.length + k →
        (vs.map (chr e) ++ List.replicate k 61)[i]? = some 61 := by
      intro i h1 h2
      rw [List.getElem?_append_right (by simpa using h1)]
      simp only [List.length_map]
      rw [List.getElem?_replicate, if_pos (by omega)]
    cases p with
    | true =>
      simp only [↓reduceIte] at hp
      have hn4 : ¬ (vs.length + k) % 4 ≠ 0 := by omega
      simp only [decodedSize, hlen, h0, ↓reduceIte, hn4]
      have hx : ∀ c, (vs.map (chr e) ++ List.replicate k 61)[vs.length + k - 2]? = some c →
          (if c = 61 then 1 else 0 : Nat) = if 2 ≤ k then 1 else 0 := by
        intro c hc
        by_cases h2 : 2 ≤ k
        · rw [hpad _ (by omega) (by omega)] at hc
          cases hc; simp [h2]
        · rw [hnp _ (by omega)] at hc
          cases hc
          simp [h2, chr, code_ne_pad e _ (hv _ (List.getElem_mem _))]
      have hy : ∀ c, (vs.map (chr e) ++ List.replicate k 61)[vs.length + k - 1]? = some c →
          (if c = 61 then 1 else 0 : Nat) = if 1 ≤ k then 1 else 0 := by
        intro c hc
        by_cases h2 : 1 ≤ k
        · rw [hpad _ (by omega) (by omega)] at hc
          cases hc; simp [h2]
        · rw [hnp _ (by omega)] at hc
          cases hc
          simp [h2, chr, code_ne_pad e _ (hv _ (List.getElem_mem _))]
      obtain ⟨x, hx'⟩ : ∃ x, (vs.map (chr e) ++ List.replicate k 61)[vs.length + k - 2]? = some x :=
        ⟨_, List.getElem?_eq_getElem (by omega)⟩
      obtain ⟨y, hy'⟩ : ∃ y, (vs.map (chr e) ++ List.replicate k 61)[vs.length + k - 1]? = some y :=
        ⟨_, List.getElem?_eq_getElem (by omega)⟩
      rw [get_ok _ _ _ hx', get_ok _ _ _ hy']
      simp only [Out.ok_bind, hx _ hx', hy _ hy']
      rw [if_neg]
      · simp only [Out.pure_eq]; congr 2
        split <;> split <;> omega
      · omega
    | false =>
      simp only [Bool.false_eq_true, ↓reduceIte] at hp
      obtain ⟨rfl, h1⟩ := hp
      simp only [Nat.add_zero] at h0
      simp only [decodedSize, hlen, h0, ↓reduceIte, Bool.false_eq_true, Nat.add_zero, h1]
      rw [unpadded_size _ h1, if_neg (by omega)]

/-- C02: for every text and capacity, decoding succeeds exactly when the text is
well formed Base64 whose content fits, and then returns that content. -/
theorem decode_iff (e : Encoding) (p : Bool) (text out : List UInt8) (cap : Nat)
    (hi : text.length ≤ intMax) :
    decode e p text cap = .ok (some out) ↔
      Decodes (isUrl e) p text out ∧ out.length ≤ cap := by
  constructor
  · intro h
    unfold decode at h
    cases hs : decodedSize text p with
    | ub => simp [hs] at h
    | ok sz =>
    cases sz with
    | none => simp [hs] at h
    | some sz =>
    simp only [hs, Out.ok_bind] at h
    split at h
    · simp at h
    · rename_i hcap
      cases hd : decLoop e p text.length 0 0 text with
      | ub => simp [hd] at h
      | ok r =>
      cases r with
      | none => simp [hd] at h
      | some o =>
      simp only [hd, Out.ok_bind] at h
      split at h
      · simp at h
      · rename_i ho
        simp only [Out.pure_eq, Out.ok.injEq, Option.some.injEq] at h
        subst h
        refine ⟨?_, Nat.not_lt.mp ho⟩
        obtain ⟨vs, k, h1, h2, h3, h4⟩ := decLoop_sound_form e p _ text 0 0 o (by simp) hd
        have hlen : text.length = vs.length + k := by rw [h4]; simp
        have hc := decLoop_complete e p k h2 h3 vs text.length 0 0 h1 rfl (by omega)
        rw [← h4, hd] at hc
        simp only [Out.ok.injEq, Option.some.injEq] at hc
        -- the size check rules out impossible lengths
        have hsz : if p then (vs.length + k) % 4 = 0 else k = 0 ∧ vs.length % 4 ≠ 1 := by
          cases p with
          | true =>
            simp only [↓reduceIte]
            by_cases h0 : text.length = 0
            · omega
            · simp only [decodedSize, h0, ↓reduceIte] at hs
              split at hs
              · simp at hs
              · omega
          | false =>
            simp only [Bool.false_eq_true, ↓reduceIte]
            refine ⟨h3 rfl, ?_⟩
            have := h3 rfl
            by_cases h0 : text.length = 0
            · omega
            · simp only [decodedSize, h0, ↓reduceIte, Bool.false_eq_true] at hs
              split at hs
              · simp at hs
              · omega
        obtain ⟨rest, hb, hr⟩ := decVals_bits vs h1 (by
          cases p <;> simp only [Bool.false_eq_true, ↓reduceIte] at hsz <;> omega)
        refine ⟨vs, k, rest, h1, hr, by rw [hc]; exact hb, h4, ?_⟩
        cases p <;> simp only [Bool.false_eq_true, ↓reduceIte] at hsz ⊢ <;> omega
  · rintro ⟨⟨vs, k, rest, h1, hr, hb, h4, hp⟩, hcap⟩
    have hk : k < 3 := by
      cases p <;> simp only [Bool.false_eq_true, ↓reduceIte] at hp <;> omega
    have h3 : p = false → k = 0 := by rintro rfl; simpa using hp
    have hbl := congrArg List.length hb
    simp only [List.length_append, byteStream_length, sextetStream_length] at hbl
    have hm : vs.length % 4 ≠ 1 := by omega
    have hlen : text.length = vs.length + k := by rw [h4]; simp
    change text = vs.map (chr e) ++ List.replicate k 61 at h4
    have hc := decLoop_complete e p k hk h3 vs text.length 0 0 h1 rfl (by omega)
    have hs := decodedSize_form e p vs k h1 hk (by
      cases p <;> simp only [Bool.false_eq_true, ↓reduceIte] at hp ⊢ <;> omega) (by omega)
    rw [← h4] at hc hs
    obtain ⟨rest', hb', hr'⟩ := decVals_bits vs h1 hm
    have hout : decVals vs = out :=
      byteStream_prefix_inj _ _ rest' rest (by omega) (by omega) (by rw [← hb', hb])
    rw [hout] at hc hs
    simp [decode, hs, hc, Nat.not_lt.mpr hcap]

example : decode .std true [84, 87, 69, 61] 2 = .ok (some [77, 97]) := by decide
example : Decodes false true [84, 87, 69, 61] [77, 97] :=
  ((decode_iff .std true [84, 87, 69, 61] [77, 97] 2 (by decide)).mp (by decide)).1

/-- C02: decoding never leaves its buffers or otherwise hits undefined
behaviour; hence every text that is not well formed (or does not fit) is
rejected. -/
theorem decode_no_ub (e : Encoding) (p : Bool) (text : List UInt8) (cap : Nat)
    (hi : text.length ≤ intMax) : decode e p text cap ≠ .ub := by
  intro h
  unfold decode at h
  have hs : decodedSize text p ≠ .ub := by
    intro hs
    unfold decodedSize at hs
    by_cases h0 : text.length = 0
    · simp [h0] at hs
    · rw [if_neg h0] at hs
      cases p with
      | true =>
        simp only [↓reduceIte] at hs
        split at hs
        · simp at hs
        · rw [get_ok text _ _ (List.getElem?_eq_getElem (by omega)),
            get_ok text _ _ (List.getElem?_eq_getElem (by omega))] at hs
          simp only [Out.ok_bind, Out.pure_eq] at hs
          rw [if_neg] at hs
          · simp at hs
          · omega
      | false =>
        simp only [Bool.false_eq_true, ↓reduceIte] at hs
        split at hs
        · simp at hs
        · rename_i h1
          rw [unpadded_size _ h1, if_neg (by omega)] at hs
          simp at hs
  cases hs' : decodedSize text p with
  | ub => exact hs hs'
  | ok sz =>
  cases sz with
  | none => simp [hs'] at h
  | some sz =>
  simp only [hs', Out.ok_bind] at h
  split at h
  · simp at h
  · rename_i hcap
    cases hd : decLoop e p text.length 0 0 text with
    | ub => exact decLoop_no_ub e p _ text 0 0 (by simp) hd
    | ok r =>
    cases r with
    | none => simp [hd] at h
    | some o =>
      simp only [hd, Out.ok_bind] at h
      obtain ⟨vs, k, h1, h2, h3, h4⟩ := decLoop_sound_form e p _ text 0 0 o (by simp) hd
      have hlen : text.length = vs.length + k := by rw [h4]; simp
      have hc := decLoop_complete e p k h2 h3 vs text.length 0 0 h1 rfl (by omega)
      rw [← h4, hd] at hc
      simp only [Out.ok.injEq, Option.some.injEq] at hc
      have hsz : if p then (vs.length + k) % 4 = 0 else k = 0 ∧ vs.length % 4 ≠ 1 := by
        cases p with
        | true =>
          simp only [↓reduceIte]
          by_cases h0 : text.length = 0
          · omega
          · simp only [decodedSize, h0, ↓reduceIte] at hs'
            split at hs'
            · simp at hs'
            · omega
        | false =>
          simp only [Bool.false_eq_true, ↓reduceIte]
          refine ⟨h3 rfl, ?_⟩
          have := h3 rfl
          by_cases h0 : text.length = 0
          · omega
          · simp only [decodedSize, h0, ↓reduceIte, Bool.false_eq_true] at hs'
            split at hs'
            · simp at hs'
            · omega
      have hs2 := decodedSize_form e p vs k h1 h2 hsz (by omega)
      rw [← h4, hs', ← hc] at hs2
      simp only [Out.ok.injEq, Option.some.injEq] at hs2
      rw [if_neg (by omega)] at h
      simp at h

example : decode .std true [61, 61, 61, 61, 255] 0 = .ok none := by decide

/-- C01: decoding the encoded text returns the input. -/
theorem decode_encode (e : Encoding) (p : Bool) (input text : List UInt8) (cap cap' : Nat)
    (henc : encode e p input cap = .ok (some text)) (hcap : encodedSize input.length p ≤ cap)
    (hint : encodedSize input.length p ≤ intMax) (hcap' : input.length ≤ cap') :
    decode e p text cap' = .ok (some input) := by
  obtain ⟨t, h1, h2, vs, z, k, h3, h4, h5, h6, h7⟩ := encode_spec e p input cap hcap hint
  rw [h1] at henc
  simp only [Out.ok.injEq, Option.some.injEq] at henc
  subst henc
  rw [decode_iff e p t input cap' (by omega)]
  refine ⟨⟨vs, k, List.replicate z false, h3, by simpa using h4, h5, h6, ?_⟩, hcap'⟩
  have hb := congrArg List.length h5
  simp only [sextetStream_length, List.length_append, byteStream_length,
    List.length_replicate] at hb
  cases p with
  | true =>
    simp only [↓reduceIte] at h7 ⊢
    refine ⟨h7.1, ?_⟩
    omega
  | false => simpa using h7

example (text : List UInt8) (h : encode .url false [255, 0, 7, 9] 6 = .ok (some text)) :
    decode .url false text 4 = .ok (some [255, 0, 7, 9]) :=
  decode_encode .url false [255, 0, 7, 9] text 6 4 h (by decide) (by decide) (by decide)

/-- C02 (limit of the decoder): decoding is not injective, texts with non-zero
leftover bits are accepted ("QQ==" and "QR==" decode to the same byte), so a
decoded value does not determine the text. -/
theorem decode_accepts_noncanonical :
    decode .std true [81, 81, 61, 61] 1 = .ok (some [65]) ∧
    decode .std true [81, 82, 61, 61] 1 = .ok (some [65]) := by decide

/-- C01/C02: the in-place decoder `oc_base64_decode` returns the same data as
decoding into a separate buffer, zeroes the rest of the buffer, and stays
inside the buffer. -/
theorem decodeInPlace_iff (buf b : List UInt8) (n : Nat) (hi : buf.length ≤ intMax) :
    decodeInPlace buf = .ok (some (n, b)) ↔
      ∃ out, Decodes false true buf out ∧ n = out.length ∧
        b = out ++ List.replicate (buf.length - out.length) 0 := by
  have hub := decode_no_ub .std true buf buf.length hi
  have hip := ipLoop_eq .std buf.length buf.length 0 0 buf rfl (Nat.le_refl _) (by simp)
  simp only [Nat.sub_self, List.drop_zero] at hip
  have hiff : ∀ out, decode .std true buf buf.length = .ok (some out) ↔
      Decodes false true buf out := by
    intro out
    rw [decode_iff _ _ _ _ _ hi]
    refine ⟨fun h => h.1, fun h => ⟨h, ?_⟩⟩
    obtain ⟨vs, k, rest, h1, hr, hb, h4, hp⟩ := h
    have hbl := congrArg List.length hb
    simp only [List.length_append, byteStream_length, sextetStream_length] at hbl
    have : buf.length = vs.length + k := by rw [h4]; simp
    omega
  unfold decodeInPlace
  unfold decode at hub hiff
  cases hs : decodedSize buf true with
  | ub => simp [hs] at hub
  | ok sz =>
  cases sz with
  | none =>
    simp only [hs, Out.ok_bind, Out.pure_eq, Out.ok.injEq, reduceCtorEq, false_iff] at hiff ⊢
    rintro ⟨out, h, _⟩
    exact hiff out h
  | some sz =>
    simp only [hs, Out.ok_bind] at hiff hub ⊢
    by_cases hc : buf.length < sz
    · simp only [hc, ↓reduceIte, Out.pure_eq, Out.ok.injEq, reduceCtorEq, false_iff] at hiff ⊢
      rintro ⟨out, h, _⟩
      exact hiff out h
    · simp only [hc, ↓reduceIte] at hiff hub ⊢
      cases hd : decLoop .std true buf.length 0 0 buf with
      | ub => simp [hd] at hub
      | ok r =>
      cases r with
      | none =>
        rw [hip, hd]
        simp only [hd, Out.ok_bind, ipResult, Out.pure_eq, Out.ok.injEq, reduceCtorEq,
          false_iff] at hiff ⊢
        rintro ⟨out, h, _⟩
        exact hiff out h
      | some o =>
        rw [hip, hd]
        simp only [hd, Out.ok_bind] at hiff hub
        by_cases ho : buf.length < o.length
        · simp [ho] at hub
        · simp only [ho, ↓reduceIte, Out.pure_eq, Out.ok.injEq, Option.some.injEq] at hiff
          have hl : (overwrite buf 0 o).length = buf.length := by
            simp only [overwrite, List.take_zero, List.nil_append, List.length_append,
              List.length_drop]
            omega
          simp only [ipResult, Out.ok_bind, Out.pure_eq, Out.ok.injEq, Option.some.injEq,
            Prod.mk.injEq, Nat.zero_add, hl]
          have ht : (overwrite buf 0 o).take o.length = o := by
            simp [overwrite]
          rw [ht]
          constructor
          · rintro ⟨rfl, rfl⟩
            exact ⟨o, (hiff o).mp rfl, rfl, rfl⟩
          · rintro ⟨out, h1, rfl, rfl⟩
            have := (hiff out).mpr h1
            subst this
            exact ⟨rfl, rfl⟩

example : decodeInPlace [84, 87, 69, 61] = .ok (some (2, [77, 97, 0, 0])) := by decide

/-- C02: in-place decoding never leaves the buffer. -/
theorem decodeInPlace_no_ub (buf : List UInt8) (hi : buf.length ≤ intMax) :
    decodeInPlace buf ≠ .ub := by
  have hub := decode_no_ub .std true buf buf.length hi
  have hip := ipLoop_eq .std buf.length buf.length 0 0 buf rfl (Nat.le_refl _) (by simp)
  simp only [Nat.sub_self, List.drop_zero] at hip
  intro h
  unfold decodeInPlace at h
  unfold decode at hub
  cases hs : decodedSize buf true with
  | ub => simp [hs] at hub
  | ok sz =>
  cases sz with
  | none => simp [hs] at h
  | some sz =>
    simp only [hs, Out.ok_bind] at hub h
    by_cases hc : buf.length < sz
    · simp [hc] at h
    · simp only [hc, ↓reduceIte] at hub h
      rw [hip] at h
      cases hd : decLoop .std true buf.length 0 0 buf with
      | ub => simp [hd] at hub
      | ok r => cases r <;> simp [hd, ipResult] at h

example : decodeInPlace [84, 87, 69, 61, 0] = .ok none := by decide

end Verif.Base64
