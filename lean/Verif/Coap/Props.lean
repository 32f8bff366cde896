import Verif.Coap.Lemmas

/-! Properties C13-C16 of the CoAP option codec. -/

namespace Verif.Coap

open Spec

/-! ### C13: option headers -/

/-- C13: a header written for delta `d` and length `l` anywhere in a message is
read back as `d` and `l`, and reading it consumes exactly the bytes written;
its first byte is never taken for a payload marker. -/
theorem header_roundtrip (pre post : List UInt8) (d l : Nat) (hd : d ≤ 65804) (hl : l ≤ 65804) :
    readHeader (pre ++ ((setOptionHeader d l).2 ++ post)) pre.length
        = .ok (d, l, pre.length + (setOptionHeader d l).1)
      ∧ (setOptionHeader d l).2.length = (setOptionHeader d l).1
      ∧ ∃ b, (setOptionHeader d l).2.head? = some b ∧ b &&& 0xF0 ≠ 0xF0 := by
  refine ⟨?_, header_length d l, _, rfl, ?_⟩
  · rw [readHeader_header pre post d l hd hl, header_length]
  · intro h
    have h2 := congrArg UInt8.toNat h
    rw [UInt8.toNat_and, header_byte] at h2
    have n1 := nibble_le d
    have n2 := nibble_le l
    generalize optionNibble d = a at *
    generalize optionNibble l = b at *
    have : ∀ a < 15, ∀ b < 15, ¬ (a * 16 + b) &&& 240 = 240 := by decide
    exact this a (by omega) b (by omega) h2

/-- C13: the header is the one RFC 7252 section 3.1 prescribes, and there is no
other: every RFC header announcing the same delta and length is this one. -/
theorem header_is_rfc (d l : Nat) (hd : d ≤ 65804) (hl : l ≤ 65804) (hdr : List UInt8) :
    Wire d l hdr ↔ hdr = (setOptionHeader d l).2 :=
  ⟨wire_unique d l hdr, fun h => h ▸ wire_header d l hd hl⟩

/-- C13: conversely every RFC header is read by the parser as what it
announces. -/
theorem rfc_header_read (pre post hdr : List UInt8) (d l : Nat) (h : Wire d l hdr) :
    readHeader (pre ++ (hdr ++ post)) pre.length = .ok (d, l, pre.length + hdr.length) := by
  rw [wire_unique d l hdr h]
  exact readHeader_header pre post d l (wire_le d l hdr h).1 (wire_le d l hdr h).2

example : (setOptionHeader 11 300).2 = [0xBE, 0, 31] := by decide
example : readHeader [7, 0xBE, 0, 31, 9] 1 = .ok (11, 300, 4) := by decide
example : (setOptionHeader 2037 2).2 = [0xE2, 6, 232] := by decide
example : Wire 2037 2 [0xE2, 6, 232] := (header_is_rfc 2037 2 (by decide) (by decide) _).2 (by decide)

/-- Limit of C13: a length of 65805 is not expressible; the serializer does not
refuse it but writes the header of length 269. -/
theorem header_length_65805_false : (setOptionHeader 0 65805).2 = (setOptionHeader 0 269).2 := by
  decide

/-- Disagreement with RFC 7252 section 3.1: the reserved length nibble 15 is not
a format error, it is read as length 15. -/
theorem reserved_length_nibble_accepted : readHeader [0x0F] 0 = .ok (0, 15, 1) := by decide

/-! ### C14: integer options -/

/-- C14: every 32 bit value is written as an option whose value reads back as
itself, in the least number of bytes. -/
theorem int_option_roundtrip (number current v : Nat) (hv : v < 2 ^ 32)
    (hc : current ≤ number) (hd : number - current ≤ 65804) (hn : number < 2 ^ 32)
    (pre post : List UInt8) :
    ∃ val : List UInt8,
      OptSeq current [(number, val)] (serIntOption number current v).2 ∧
      (serIntOption number current v).2.length = (serIntOption number current v).1 ∧
      parseIntOption val = some v ∧
      (∀ other, parseIntOption other = some v → val.length ≤ other.length) ∧
      readHeader (pre ++ ((serIntOption number current v).2 ++ post)) pre.length
        = .ok (number - current, val.length,
            pre.length + (serIntOption number current v).1 - val.length) := by
  have hcl := intOptionCount_le v
  have hll := intOptionBytes_length v
  have hseq := optSeq_segs_cons number current (intOptionBytes v) [] [] hc hd (by omega) hn (.nil _)
  rw [List.append_nil, hll] at hseq
  refine ⟨intOptionBytes v, hseq, ?_, ?_, ?_, ?_⟩
  · simp only [serIntOption, List.length_append, header_length, hll]
  · rw [parseIntOption_eq, if_pos (by omega), beVal_intOptionBytes v hv]
  · intro other ho
    rw [parseIntOption_eq] at ho
    split at ho
    · have hb := beVal_lt other
      have : beVal other = v := by simpa using ho
      rw [this] at hb
      rw [hll, intOptionCount_eq v hv]
      rename_i h4
      have h5 : other.length = 0 ∨ other.length = 1 ∨ other.length = 2 ∨ other.length = 3
          ∨ other.length = 4 := by omega
      rcases h5 with h | h | h | h | h <;> rw [h] at hb ⊢ <;> (repeat' split) <;> omega
    · exact absurd ho (by simp)
  · have e : (serIntOption number current v).2
        = (setOptionHeader (optDelta number current) (intOptionCount v)).2 ++ intOptionBytes v := rfl
    rw [e, List.append_assoc, optDelta_le _ _ hc hn,
      readHeader_header pre _ _ _ hd (by omega), hll, header_length]
    simp only [serIntOption, Out.ok.injEq, Prod.mk.injEq, true_and]
    rw [optDelta_le _ _ hc hn]
    omega

/-- C14: any value of at most four bytes reads as its big-endian number, longer
values are refused. -/
theorem int_option_read (bytes : List UInt8) :
    parseIntOption bytes = if bytes.length ≤ 4 then some (beVal bytes) else none :=
  parseIntOption_eq bytes

/-- C14: zero is written as the empty value. -/
theorem int_option_zero (number current : Nat) :
    (serIntOption number current 0).2 = (setOptionHeader (optDelta number current) 0).2 := by
  simp [serIntOption, intOptionCount, intOptionBytes]

example : (serIntOption 12 11 10000).2 = [0x12, 0x27, 0x10] := by decide
example : parseIntOption [0x27, 0x10] = some 10000 := by decide
example : (serIntOption 14 12 0xFFFFFFFF).2 = [0x24, 255, 255, 255, 255] := by decide
example : parseIntOption [1, 2, 3, 4, 5] = none := by decide

/-! ### C15: block options -/

/-- C15: a block option accepted by the setter reaches the receiver with the
same number, the flag as 0 or 1, the size rounded down to `16 * 2^k`, and the
offset `number * size` without wrap-around.  For a size that is `16 * 2^k` the
size is unchanged. -/
theorem block_roundtrip (num more size off : Nat) (b : Block)
    (h : setBlock1 num more size off = some b ∨ setBlock2 num more size off = some b) :
    ∃ k, k ≤ 7 ∧ 16 * 2 ^ k ≤ size ∧ size < 16 * 2 ^ (k + 1) ∧
      blockDecode (blockEncode b.num b.more b.size)
        = ⟨num, if more ≠ 0 then 1 else 0, 16 * 2 ^ k, num * (16 * 2 ^ k)⟩ := by
  have hb : num ≤ 0xFFFFF ∧ 16 ≤ size ∧ size ≤ 2048 ∧ b.num = num ∧ b.size = size ∧
      ((b.more ≠ 0) ↔ more ≠ 0) := by
    rcases h with h | h
    · unfold setBlock1 at h
      split at h
      · simp at h
      · split at h
        · simp at h
        · cases h; refine ⟨by omega, by omega, by omega, rfl, rfl, Iff.rfl⟩
    · unfold setBlock2 at h
      split at h
      · simp at h
      · split at h
        · simp at h
        · cases h
          refine ⟨by omega, by omega, by omega, rfl, rfl, ?_⟩
          simp only; split <;> simp_all
  obtain ⟨h1, h2, h3, e1, e2, e3⟩ := hb
  rw [e1, e2]
  obtain ⟨henc, hk⟩ := blockEncode_eq num b.more size h1 h2 h3
  have hl := log2Loop_spec (size / 16) (by omega)
  refine ⟨log2Loop (size / 16), hk, by omega, by omega, ?_⟩
  rw [henc]
  generalize log2Loop (size / 16) = k at *
  have hm : (if b.more ≠ 0 then 8 else 0) = (if more ≠ 0 then 8 else (0 : Nat)) := by
    by_cases h : more ≠ 0
    · rw [if_pos h, if_pos (e3.2 h)]
    · rw [if_neg h, if_neg (fun hb => h (e3.1 hb))]
  rw [hm]
  have hm2 : (if more ≠ 0 then 8 else (0 : Nat)) = 8 * (if more ≠ 0 then 1 else 0) := by
    split <;> rfl
  rw [hm2]
  have hb1 : (if more ≠ 0 then 1 else (0 : Nat)) ≤ 1 := by split <;> omega
  generalize (if more ≠ 0 then 1 else (0 : Nat)) = m at *
  have hp : 2 ^ k ≤ 2 ^ 7 := Nat.pow_le_pow_right (by omega) hk
  rw [blockDecode_eq _ (by omega)]
  rw [show (num * 16 + 8 * m + k) % 8 = k by omega, show (num * 16 + 8 * m + k) / 16 = num by omega,
    show (num * 16 + 8 * m + k) / 8 % 2 = m by omega]
  have : num * 16 * 2 ^ k < 2 ^ 32 := by
    calc num * 16 * 2 ^ k ≤ num * 16 * 2 ^ 7 := Nat.mul_le_mul_left _ hp
      _ < 2 ^ 32 := by omega
  rw [Nat.mod_eq_of_lt this, Nat.mod_eq_of_lt (by omega), Nat.mul_assoc]

/-- C15 for the sizes of RFC 7959 (and the 2048 of BERT): everything is
unchanged. -/
theorem block_roundtrip_pow (num more k off : Nat) (hn : num ≤ 0xFFFFF) (hk : k ≤ 7) :
    setBlock1 num more (16 * 2 ^ k) off = some ⟨num, more, 16 * 2 ^ k, off⟩ ∧
    blockDecode (blockEncode num more (16 * 2 ^ k))
      = ⟨num, if more ≠ 0 then 1 else 0, 16 * 2 ^ k, num * (16 * 2 ^ k)⟩ := by
  have hp : 2 ^ k ≤ 2 ^ 7 := Nat.pow_le_pow_right (by omega) hk
  have hp1 := Nat.two_pow_pos k
  have hset : setBlock1 num more (16 * 2 ^ k) off = some ⟨num, more, 16 * 2 ^ k, off⟩ := by
    rw [setBlock1, if_neg (by omega), if_neg (by omega)]
  refine ⟨hset, ?_⟩
  obtain ⟨k', _, h1, h2, h3⟩ := block_roundtrip num more _ off _ (.inl hset)
  have : k' = k := by
    have a1 : 2 ^ k' ≤ 2 ^ k := by omega
    have a2 : 2 ^ k < 2 ^ (k' + 1) := by omega
    have := (Nat.pow_le_pow_iff_right (by decide : 1 < 2)).1 a1
    have := (Nat.pow_lt_pow_iff_right (by decide : 1 < 2)).1 a2
    omega
  rw [this] at h3; exact h3

/-- C15: what the setters refuse. -/
theorem block_refused (num more size off : Nat) :
    (setBlock1 num more size off = none ↔ (0xFFFFF < num ∨ size < 16 ∨ 2048 < size)) ∧
    (setBlock2 num more size off = none ↔ (0xFFFFF < num ∨ size < 16 ∨ 2048 < size)) := by
  unfold setBlock1 setBlock2
  constructor
  · split
    · simp; omega
    · split
      · simp; omega
      · simp; omega
  · split
    · simp; omega
    · split
      · simp; omega
      · simp; omega

/-- C15 for received options of at most three bytes (RFC 7959 section 2.2): the
offset handed to the application is `number * size`. -/
theorem block_decode_offset (v : Nat) (hv : v < 2 ^ 24) :
    (blockDecode v).offset = (blockDecode v).num * (blockDecode v).size ∧
    (blockDecode v).num ≤ 0xFFFFF ∧ (blockDecode v).more ≤ 1 := by
  rw [blockDecode_eq v (by omega)]
  simp only
  have hp : 2 ^ (v % 8) ≤ 2 ^ 7 := Nat.pow_le_pow_right (by omega) (by omega)
  have : v / 16 * 16 * 2 ^ (v % 8) < 2 ^ 32 := by
    calc v / 16 * 16 * 2 ^ (v % 8) ≤ v / 16 * 16 * 2 ^ 7 := Nat.mul_le_mul_left _ hp
      _ < 2 ^ 32 := by omega
  refine ⟨?_, by omega, by omega⟩
  have e : v / 16 % 2 ^ 20 = v / 16 := Nat.mod_eq_of_lt (by omega)
  rw [Nat.mod_eq_of_lt this, e, Nat.mul_assoc]

/-- Disagreement: a four byte block option is accepted, and its offset is not
`number * size` (the number is masked to 20 bits, the offset is not). -/
theorem block_decode_four_bytes_false :
    parseIntOption [1, 0, 0, 0] = some 16777216 ∧
    (blockDecode 16777216).num = 0 ∧ (blockDecode 16777216).offset = 16777216 := by decide

/-- A size that is not a power of two is accepted by the setter, the receiver
sees a smaller one. -/
theorem block_size_rounded : setBlock1 3 1 100 0 = some ⟨3, 1, 100, 0⟩ ∧
    blockDecode (blockEncode 3 1 100) = ⟨3, 1, 64, 192⟩ := by
  refine ⟨by decide, ?_⟩
  obtain ⟨k, _, h1, h2, h3⟩ := block_roundtrip 3 1 100 0 ⟨3, 1, 100, 0⟩ (.inl (by decide))
  have : k = 2 := by
    have a1 : 2 ^ k < 2 ^ 3 := by omega
    have a2 : 2 ^ 2 < 2 ^ (k + 1) := by omega
    have := (Nat.pow_lt_pow_iff_right (by decide : 1 < 2)).1 a1
    have := (Nat.pow_lt_pow_iff_right (by decide : 1 < 2)).1 a2
    omega
  subst this; exact h3

example : blockDecode (blockEncode 1048575 1 1024) = ⟨1048575, 1, 1024, 1073740800⟩ :=
  (block_roundtrip_pow 1048575 1 6 0 (by decide) (by decide)).2

/-! ### C16: splitting paths and queries -/

/-- C16 (sender): a path or query made of segments (all but possibly the first
non-empty, none containing the separator) is written as one option per segment,
in order, with the RFC wire format; the byte count of the sizing pass is the
number of bytes written, and nothing outside the string and one byte after it is
read. -/
theorem split_one_option_per_segment (segs : List (List UInt8)) (hne : segs ≠ [])
    (after : UInt8) (post : List UInt8) (number : Nat) (split : UInt8) (cur : Nat)
    (hsp : split ≠ 0)
    (hns : ∀ s ∈ segs, split ∉ s) (hsl : ∀ s ∈ segs, s.length ≤ 65804)
    (htail : ∀ s ∈ segs.tail, s ≠ [])
    (hcur : cur ≤ number) (hd : number - cur ≤ 65804) (hn : number < 2 ^ 32) :
    ∃ bs, OptSeq cur (segs.map fun s => (number, s)) bs ∧
      serArrayOption number cur (joinSegs split segs ++ after :: post) (joinSegs split segs).length split
        = .ok (bs.length, bs) :=
  serArrayOption_split segs hne (after :: post) number split cur (by simp) hsp hns hsl htail hcur hd hn

/-- C16 (sender): an option without splitting is written whole. -/
theorem array_option_whole (number cur : Nat) (s post : List UInt8)
    (hsl : s.length ≤ 65804) (hcur : cur ≤ number) (hd : number - cur ≤ 65804) (hn : number < 2 ^ 32) :
    ∃ bs, OptSeq cur [(number, s)] bs ∧
      serArrayOption number cur (s ++ post) s.length 0 = .ok (bs.length, bs) := by
  refine ⟨_, optSeq_segs_cons number cur s [] [] hcur hd hsl hn (.nil _), ?_⟩
  rw [serArrayOption, if_pos rfl, sliceChk, if_pos (by simp)]
  have : slice (s ++ post) 0 s.length = s := by simp [slice]
  simp [this, header_length]

/-- C16 (receiver): merging an option value into the string collected so far
appends separator and value in place; it changes only bytes between the end of
the collected string and the end of the option, so nothing not yet parsed and no
earlier string is altered. -/
theorem merge_appends (mem : List UInt8) (dst : Span) (oo ol : Nat) (sep : UInt8)
    (h1 : dst.len = 0 ∨ dst.off + dst.len + 1 ≤ oo) (h2 : oo + ol ≤ mem.length) :
    ∃ mem' dst', mergeMulti mem dst oo ol sep = .ok (mem', dst') ∧
      mem'.length = mem.length ∧
      slice mem' dst'.off dst'.len
        = (if dst.len = 0 then slice mem oo ol else slice mem dst.off dst.len ++ sep :: slice mem oo ol) ∧
      (∀ k, k < dst.off + dst.len ∨ oo + ol ≤ k → mem'[k]? = mem[k]?) := by
  obtain ⟨mem', dst', e, hl, hs, _, _, hk⟩ := mergeMulti_spec mem dst oo ol sep h1 h2
  exact ⟨mem', dst', e, hl, hs, fun k h => hk k (by omega)⟩

example : serArrayOption 11 0 [97, 47, 98, 99, 0] 4 47 = .ok (5, [0xB1, 97, 0x02, 98, 99]) := by
  simp [serArrayOption, splitLoop, Out.get, sliceChk, slice, setOptionHeader, optDelta, extWritten,
    extBytes, optionNibble]
example : mergeMulti [0xB1, 97, 0x02, 98, 99] ⟨1, 1⟩ 3 2 47 = .ok ([0xB1, 97, 47, 98, 99], ⟨1, 4⟩) := by
  decide

/-- Disagreement: an empty segment is not written as an empty option; `a//b` is
sent as the two segments `a` and `/b`. -/
theorem split_empty_segment_false :
    serArrayOption 11 0 [97, 47, 47, 98, 0] 4 47 = .ok (5, [0xB1, 97, 0x02, 47, 98]) := by
  simp [serArrayOption, splitLoop, Out.get, sliceChk, slice, setOptionHeader, optDelta, extWritten,
    extBytes, optionNibble]

/-- Disagreement: for a path ending in the separator the loop reads two bytes
past the string, outside a NUL-terminated buffer holding it. -/
theorem split_trailing_separator_overread :
    serArrayOption 11 0 [97, 47, 0] 2 47 = .ub := by
  simp [serArrayOption, splitLoop, Out.get, sliceChk, slice, setOptionHeader, optDelta, extWritten,
    extBytes, optionNibble]

/-- Precondition: the byte after the string is read, so a string held without a
terminator (pointer and length only) is read past its end. -/
theorem split_unterminated_overread : serArrayOption 11 0 [97] 1 47 = .ub := by
  simp [serArrayOption, splitLoop, Out.get]

end Verif.Coap
