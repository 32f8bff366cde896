import Verif.CoapMsg.Lemmas
import Verif.CoapMsg.Spec

/-! Helper lemmas: the serializer writes the option list of a message, and the
fold over that list gives the message back. -/

namespace Verif.CoapMsg

open Verif.Coap Verif.Coap.Spec Verif.CoapMsg.Spec

/-- The bytes written so far are the options `opts`, and can be continued from
option number `cur`. -/
def SerOk (s : Ser) (opts : List (Nat × List UInt8)) : Prop :=
  s.len = s.out.length ∧
  (∀ o ∈ opts, o.1 ≤ s.cur) ∧
  ∀ rest bs, OptSeq s.cur rest bs → OptSeq 0 (opts ++ rest) (s.out ++ bs)

theorem serOk_init : SerOk ⟨0, 0, []⟩ [] := ⟨rfl, by simp, fun _ _ h => h⟩

theorem mem_snoc (opts : List (Nat × List UInt8)) (n : Nat) (v : List UInt8) (c : Nat)
    (h : ∀ o ∈ opts, o.1 ≤ c) (hc : c ≤ n) : ∀ o ∈ opts ++ [(n, v)], o.1 ≤ n := by
  intro o ho
  rcases List.mem_append.mp ho with ho | ho
  · exact Nat.le_trans (h o ho) hc
  · simp at ho; simp [ho]

theorem serOk_int (s : Ser) (opts : List (Nat × List UInt8)) (n v : Nat)
    (h : SerOk s opts) (hc : s.cur ≤ n) (hn : n ≤ 65804) :
    SerOk ⟨n, s.len + (serIntOption n s.cur v).1, s.out ++ (serIntOption n s.cur v).2⟩
      (opts ++ [(n, intOptionBytes v)]) := by
  have hcl := intOptionCount_le v
  have hll := intOptionBytes_length v
  refine ⟨?_, mem_snoc opts n _ s.cur h.2.1 hc, ?_⟩
  · rw [List.length_append, ← h.1]
    simp [serIntOption, header_length, hll]
  · intro rest bs hr
    have hseq := optSeq_segs_cons n s.cur (intOptionBytes v) rest bs hc (by omega) (by omega) (by omega) hr
    rw [hll] at hseq
    have := h.2.2 _ _ hseq
    simpa [serIntOption] using this

theorem stepInt_ok {σ : Type} (p : Packet σ) (s : Ser) (opts : List (Nat × List UInt8)) (n v : Nat)
    (h : SerOk s opts) (hc : s.cur ≤ n) (hn : n ≤ 65804) :
    SerOk (stepInt p n v s) (opts ++ if p.isSet n then [(n, intOptionBytes v)] else []) ∧
      (stepInt p n v s).cur ≤ n := by
  unfold stepInt
  split
  · exact ⟨serOk_int s opts n v h hc hn, Nat.le_refl _⟩
  · exact ⟨by simpa using h, hc⟩

theorem text_append (t post : List UInt8) : text ⟨t ++ post, t.length⟩ = t := by simp [text]

theorem stepStr_ok {σ : Type} (p : Packet σ) (s : Ser) (opts : List (Nat × List UInt8)) (n : Nat) (str : CStr)
    (h : SerOk s opts) (hc : s.cur ≤ n) (hn : n ≤ 65804) (hstr : p.isSet n = true → StrOk str) :
    ∃ s', stepStr p n str 0 s = .ok s' ∧
      SerOk s' (opts ++ if p.isSet n then [(n, text str)] else []) ∧ s'.cur ≤ n := by
  unfold stepStr
  by_cases hs : p.isSet n = true
  · rw [if_pos hs, if_pos hs]
    obtain ⟨h1, h2⟩ := hstr hs
    have hlt : (text str).length = str.len := by simp [text, h1]
    rw [serArrayOption, if_pos rfl, sliceChk, if_pos (by omega)]
    have : slice str.mem 0 str.len = text str := by simp [slice, text]
    simp only [Out.ok_bind, this]
    refine ⟨_, rfl, ⟨?_, mem_snoc opts n _ s.cur h.2.1 hc, ?_⟩, Nat.le_refl _⟩
    · simp [h.1, header_length, hlt]
    · intro rest bs hr
      have hseq := optSeq_segs_cons n s.cur (text str) rest bs hc (by omega) (by omega) (by omega) hr
      rw [hlt] at hseq
      have := h.2.2 _ _ hseq
      simpa using this
  · rw [if_neg hs, if_neg hs]
    exact ⟨s, rfl, by simpa using h, hc⟩

theorem optSeq_append_const (segs : List (List UInt8)) (hne : segs ≠ []) (n cur : Nat) (bs : List UInt8)
    (h : OptSeq cur (segs.map fun s => (n, s)) bs) (rest : List (Nat × List UInt8)) (bs' : List UInt8)
    (hr : OptSeq n rest bs') :
    OptSeq cur ((segs.map fun s => (n, s)) ++ rest) (bs ++ bs') := by
  induction segs generalizing cur bs with
  | nil => exact absurd rfl hne
  | cons s t ih =>
    cases h with
    | cons prev num v hdr rest' bs1 hle hw hr1 =>
      simp only [List.map_cons, List.cons_append, List.append_assoc]
      refine .cons _ _ _ _ _ _ hle hw ?_
      cases t with
      | nil =>
        cases hr1
        exact hr
      | cons s2 t2 => exact ih (by simp) n bs1 hr1

/-- Segments of a valid path. -/
theorem stepSplit_ok {σ : Type} (p : Packet σ) (s : Ser) (opts : List (Nat × List UInt8)) (n : Nat) (str : CStr)
    (sep : UInt8) (hsep : sep ≠ 0)
    (h : SerOk s opts) (hc : s.cur ≤ n) (hn : n ≤ 65804) (hstr : p.isSet n = true → SegsOk sep str) :
    ∃ s' segs, stepStr p n str sep s = .ok s' ∧
      SerOk s' (opts ++ if p.isSet n then segs.map (fun x => (n, x)) else []) ∧ s'.cur ≤ n ∧
      (p.isSet n = true → segs ≠ [] ∧ (segs = [[]] ∨ ∀ x ∈ segs, x ≠ []) ∧ text str = joinSegs sep segs) := by
  unfold stepStr
  by_cases hs : p.isSet n = true
  · rw [if_pos hs]
    obtain ⟨segs, after, post, h1, h2, h3, h4, h5⟩ := hstr hs
    have htail : ∀ x ∈ segs.tail, x ≠ [] := by
      intro x hx
      rcases h3 with h3 | h3
      · subst h3; simp at hx
      · exact h3 x (List.mem_of_mem_tail hx)
    obtain ⟨bs, hq, he⟩ := serArrayOption_split segs h1 (after :: post) n sep s.cur (by simp) hsep
      (fun x hx => (h2 x hx).1) (fun x hx => (h2 x hx).2) htail hc (by omega) (by omega)
    rw [h4, h5, he]
    refine ⟨_, segs, rfl, ⟨?_, ?_, ?_⟩, Nat.le_refl _, ?_⟩
    · simp [h.1]
    · rw [if_pos hs]
      intro o ho
      rcases List.mem_append.mp ho with ho | ho
      · exact Nat.le_trans (h.2.1 o ho) hc
      · obtain ⟨x, _, rfl⟩ := List.mem_map.mp ho
        exact Nat.le_refl _
    · intro rest bs' hr
      rw [if_pos hs]
      have := h.2.2 _ _ (optSeq_append_const segs h1 n s.cur bs hq rest bs' hr)
      simpa using this
    · intro _
      refine ⟨h1, h3, ?_⟩
      cases str with
      | mk m l => simp only at h4 h5; subst h4 h5; exact text_append _ _
  · rw [if_neg hs]
    exact ⟨s, [], rfl, by simpa [hs] using h, hc, fun h => absurd h hs⟩

/-! ### The fold over the option list -/

/-- Messages that are not signals. -/
def Plain (cfg : Cfg) (s : Packet (List UInt8)) : Prop := (cfg.tcp && isSignal s.code) = false

theorem absFold_scalar (cfg : Cfg) (s : Packet (List UInt8)) (n : Nat) (v : List UInt8) (u : Upd)
    (hp : Plain cfg s) (h3 : n ≠ 3) (h11 : n ≠ 11) (h15 : n ≠ 15) (h35 : n ≠ 35)
    (hd : decodeScalar cfg n v = (noError, u)) :
    absFold cfg [(n, v)] s = some (u.apply (setOpt' s n)) := by
  have hp' : (cfg.tcp && isSignal (setOpt' s n).code) = false := by
    unfold setOpt'; split <;> exact hp
  have ha : absOption cfg (setOpt' s n) n v = parseScalar cfg (setOpt' s n) n v := by
    unfold absOption
    simp [hp', h3, h11, h15, h35]
  rw [absFold, ha]
  simp [parseScalar, hd, absFold]

theorem intUpd_bytes (err n : Nat) (k : Nat → Nat × Upd) (hn : n < 2 ^ 32) :
    intUpd err (intOptionBytes n) k = k n := by
  have := intOptionCount_le n
  unfold intUpd
  rw [parseIntOption_eq, intOptionBytes_length, if_pos this, beVal_intOptionBytes n hn]

/-- Bits of the option map after one more option. -/
def bit (c : Bool) (n : Nat) (f : Nat → Bool) : Nat → Bool := fun k => (c && k == n) || f k

theorem bit_off (n : Nat) (f : Nat → Bool) : bit false n f = f := by
  funext k; simp [bit]

theorem setOpt'_eq {σ : Type} (s : Packet σ) (n : Nat) (h : n ≤ 60) :
    setOpt' s n = { s with isSet := bit true n s.isSet } := by
  rw [setOpt', if_pos h, setOpt]
  have : bit true n s.isSet = fun k => k == n || s.isSet k := by funext k; simp [bit]
  rw [this]

section pieces
variable (cfg : Cfg) (p : Packet CStr) (s : Packet (List UInt8)) (hp : Plain cfg s)
include hp

theorem piece_host : absFold cfg (if p.isSet 3 then [(3, text p.uriHost)] else []) s
    = some { s with uriHost := if p.isSet 3 then text p.uriHost else s.uriHost,
                    isSet := bit (p.isSet 3) 3 s.isSet } := by
  by_cases h : p.isSet 3 = true
  · have hp' : (cfg.tcp && isSignal (setOpt' s 3).code) = false := hp
    rw [if_pos h, if_pos h, h]
    simp only [absFold, absOption, hp']
    rw [setOpt'_eq s 3 (by decide)]; rfl
  · simp [h, absFold, bit_off]

theorem piece_proxy : absFold cfg (if p.isSet 35 then [(35, text p.proxyUri)] else []) s
    = some { s with proxyUri := if p.isSet 35 then text p.proxyUri else s.proxyUri,
                    isSet := bit (p.isSet 35) 35 s.isSet } := by
  by_cases h : p.isSet 35 = true
  · have hp' : (cfg.tcp && isSignal (setOpt' s 35).code) = false := hp
    rw [if_pos h, if_pos h, h]
    simp only [absFold, absOption, hp']
    rw [setOpt'_eq s 35 (by decide)]; rfl
  · simp [h, absFold, bit_off]

theorem piece_etag (hv : p.isSet 4 = true → p.etag.length ≤ 8) :
    absFold cfg (if p.isSet 4 then [(4, text ⟨p.etag, p.etag.length⟩)] else []) s
    = some { s with etag := if p.isSet 4 then p.etag else s.etag,
                    isSet := bit (p.isSet 4) 4 s.isSet } := by
  by_cases h : p.isSet 4 = true
  · rw [if_pos h, if_pos h, h]
    have ht : text ⟨p.etag, p.etag.length⟩ = p.etag := by simp [text]
    have htk : p.etag.take 8 = p.etag := List.take_of_length_le (hv h)
    rw [ht, absFold_scalar cfg s 4 p.etag (.etag p.etag) hp (by decide) (by decide) (by decide) (by decide)
      (by simp [decodeScalar, htk]), setOpt'_eq s 4 (by decide)]
    rfl
  · simp [h, absFold, bit_off]

omit hp in
theorem toI32_toU32 (i : Int) (h1 : -2^31 ≤ i) (h2 : i < 2^31) : toI32 (toU32 i) = i ∧ toU32 i < 2 ^ 32 := by
  have hb : (-2147483648 : Int) ≤ i := h1
  have hb2 : i < 2147483648 := h2
  unfold toI32 toU32
  constructor
  · split <;> omega
  · omega

theorem piece_observe (hv : p.isSet 6 = true → -2^31 ≤ p.observe ∧ p.observe < 2^31) :
    absFold cfg (if p.isSet 6 then [(6, intOptionBytes (toU32 p.observe))] else []) s
    = some { s with observe := if p.isSet 6 then p.observe else s.observe,
                    isSet := bit (p.isSet 6) 6 s.isSet } := by
  by_cases h : p.isSet 6 = true
  · rw [if_pos h, if_pos h, h]
    obtain ⟨e1, e2⟩ := toI32_toU32 p.observe (hv h).1 (hv h).2
    rw [absFold_scalar cfg s 6 _ (.observe p.observe) hp (by decide) (by decide) (by decide) (by decide)
      (by simp [decodeScalar, intUpd_bytes _ _ _ e2, e1]), setOpt'_eq s 6 (by decide)]
    rfl
  · simp [h, absFold, bit_off]

theorem piece_port (hv : p.isSet 7 = true → p.uriPort < 65536) :
    absFold cfg (if p.isSet 7 then [(7, intOptionBytes p.uriPort)] else []) s
    = some { s with uriPort := if p.isSet 7 then p.uriPort else s.uriPort,
                    isSet := bit (p.isSet 7) 7 s.isSet } := by
  by_cases h : p.isSet 7 = true
  · rw [if_pos h, if_pos h, h]
    have hb := hv h
    rw [absFold_scalar cfg s 7 _ (.uriPort p.uriPort) hp (by decide) (by decide) (by decide) (by decide)
      (by
        rw [decodeScalar]
        simp [intUpd_bytes badOption p.uriPort _ (by omega), show ¬ p.uriPort > 65535 by omega]),
      setOpt'_eq s 7 (by decide)]
    rfl
  · simp [h, absFold, bit_off]

theorem piece_format (hv : p.isSet 12 = true → validContentFormat cfg p.contentFormat = true)
    (hb : p.isSet 12 = true → p.contentFormat < 2 ^ 32) :
    absFold cfg (if p.isSet 12 then [(12, intOptionBytes p.contentFormat)] else []) s
    = some { s with contentFormat := if p.isSet 12 then p.contentFormat else s.contentFormat,
                    isSet := bit (p.isSet 12) 12 s.isSet } := by
  by_cases h : p.isSet 12 = true
  · rw [if_pos h, if_pos h, h]
    rw [absFold_scalar cfg s 12 _ (.contentFormat p.contentFormat) hp (by decide) (by decide) (by decide) (by decide)
      (by rw [decodeScalar, if_pos rfl, intUpd_bytes _ _ _ (hb h), if_pos (hv h)]),
      setOpt'_eq s 12 (by decide)]
    rfl
  · simp [h, absFold, bit_off]

theorem piece_accept (hv : p.isSet 17 = true → validAccept cfg p.accept = true)
    (hb : p.isSet 17 = true → p.accept < 2 ^ 32) :
    absFold cfg (if p.isSet 17 then [(17, intOptionBytes p.accept)] else []) s
    = some { s with accept := if p.isSet 17 then p.accept else s.accept,
                    isSet := bit (p.isSet 17) 17 s.isSet } := by
  by_cases h : p.isSet 17 = true
  · rw [if_pos h, if_pos h, h]
    rw [absFold_scalar cfg s 17 _ (.accept p.accept) hp (by decide) (by decide) (by decide) (by decide)
      (by
        rw [decodeScalar, if_neg (by decide), if_neg (by decide), if_pos rfl, intUpd_bytes _ _ _ (hb h),
          if_pos (hv h)]),
      setOpt'_eq s 17 (by decide)]
    rfl
  · simp [h, absFold, bit_off]

theorem piece_maxAge (hb : p.isSet 14 = true → p.maxAge < 2 ^ 32) :
    absFold cfg (if p.isSet 14 then [(14, intOptionBytes p.maxAge)] else []) s
    = some { s with maxAge := if p.isSet 14 then p.maxAge else s.maxAge,
                    isSet := bit (p.isSet 14) 14 s.isSet } := by
  by_cases h : p.isSet 14 = true
  · rw [if_pos h, if_pos h, h]
    rw [absFold_scalar cfg s 14 _ (.maxAge p.maxAge) hp (by decide) (by decide) (by decide) (by decide)
      (by simp [decodeScalar, intUpd_bytes badOption p.maxAge _ (hb h)]),
      setOpt'_eq s 14 (by decide)]
    rfl
  · simp [h, absFold, bit_off]

theorem piece_size2 (hb : p.isSet 28 = true → p.size2 < 2 ^ 32) :
    absFold cfg (if p.isSet 28 then [(28, intOptionBytes p.size2)] else []) s
    = some { s with size2 := if p.isSet 28 then p.size2 else s.size2,
                    isSet := bit (p.isSet 28) 28 s.isSet } := by
  by_cases h : p.isSet 28 = true
  · rw [if_pos h, if_pos h, h]
    rw [absFold_scalar cfg s 28 _ (.size2 p.size2) hp (by decide) (by decide) (by decide) (by decide)
      (by simp [decodeScalar, intUpd_bytes badOption p.size2 _ (hb h)]),
      setOpt'_eq s 28 (by decide)]
    rfl
  · simp [h, absFold, bit_off]

theorem piece_size1 (hb : p.isSet 60 = true → p.size1 < 2 ^ 32) :
    absFold cfg (if p.isSet 60 then [(60, intOptionBytes p.size1)] else []) s
    = some { s with size1 := if p.isSet 60 then p.size1 else s.size1,
                    isSet := bit (p.isSet 60) 60 s.isSet } := by
  by_cases h : p.isSet 60 = true
  · rw [if_pos h, if_pos h, h]
    rw [absFold_scalar cfg s 60 _ (.size1 p.size1) hp (by decide) (by decide) (by decide) (by decide)
      (by simp [decodeScalar, intUpd_bytes badOption p.size1 _ (hb h)]),
      setOpt'_eq s 60 (by decide)]
    rfl
  · simp [h, absFold, bit_off]

omit hp in
theorem block_seen (b : Block) (h : BlockOk b) :
    blockEncode b.num b.more b.size < 2 ^ 32 ∧ blockDecode (blockEncode b.num b.more b.size) = blockSeen b := by
  obtain ⟨hn, k, hk, hs⟩ := h
  have hp : 2 ^ k ≤ 2 ^ 7 := Nat.pow_le_pow_right (by omega) hk
  have hp1 := Nat.two_pow_pos k
  obtain ⟨henc, hl⟩ := blockEncode_eq b.num b.more b.size hn (by omega) (by omega)
  have hk2 : log2Loop (b.size / 16) = k := by
    rw [hs, show 16 * 2 ^ k / 16 = 2 ^ k by omega, log2Loop_pow]
  rw [hk2] at henc
  have hm2 : (if b.more ≠ 0 then 8 else (0 : Nat)) = 8 * (if b.more ≠ 0 then 1 else 0) := by
    split <;> rfl
  have hb1 : (if b.more ≠ 0 then 1 else (0 : Nat)) ≤ 1 := by split <;> omega
  rw [hm2] at henc
  refine ⟨by omega, ?_⟩
  rw [henc]
  unfold blockSeen
  generalize (if b.more ≠ 0 then 1 else (0 : Nat)) = m at *
  rw [blockDecode_eq _ (by omega)]
  rw [show (b.num * 16 + 8 * m + k) % 8 = k by omega, show (b.num * 16 + 8 * m + k) / 16 = b.num by omega,
    show (b.num * 16 + 8 * m + k) / 8 % 2 = m by omega]
  have : b.num * 16 * 2 ^ k < 2 ^ 32 := by
    calc b.num * 16 * 2 ^ k ≤ b.num * 16 * 2 ^ 7 := Nat.mul_le_mul_left _ hp
      _ < 2 ^ 32 := by omega
  rw [Nat.mod_eq_of_lt this, Nat.mod_eq_of_lt (by omega), hs, Nat.mul_assoc]

omit hp in
theorem bit_idem (n : Nat) (f : Nat → Bool) : (fun k => k == n || bit true n f k) = bit true n f := by
  funext k; simp only [bit, Bool.true_and]; cases k == n <;> simp

theorem piece_block2 (hv : p.isSet 23 = true → BlockOk p.block2) :
    absFold cfg (if p.isSet 23 then
      [(23, intOptionBytes (blockEncode p.block2.num p.block2.more p.block2.size))] else []) s
    = some { s with block2 := if p.isSet 23 then blockSeen p.block2 else s.block2,
                    isSet := bit (p.isSet 23) 23 s.isSet } := by
  by_cases h : p.isSet 23 = true
  · rw [if_pos h, if_pos h, h]
    obtain ⟨e1, e2⟩ := block_seen p.block2 (hv h)
    rw [absFold_scalar cfg s 23 _ (.block2 (blockSeen p.block2)) hp (by decide) (by decide) (by decide) (by decide)
      (by simp [decodeScalar, intUpd_bytes badOption _ _ e1, e2]),
      setOpt'_eq s 23 (by decide)]
    simp only [Upd.apply, setOpt]
    rw [bit_idem]
  · simp [h, absFold, bit_off]

theorem piece_block1 (hv : p.isSet 27 = true → BlockOk p.block1) :
    absFold cfg (if p.isSet 27 then
      [(27, intOptionBytes (blockEncode p.block1.num p.block1.more p.block1.size))] else []) s
    = some { s with block1 := if p.isSet 27 then blockSeen p.block1 else s.block1,
                    isSet := bit (p.isSet 27) 27 s.isSet } := by
  by_cases h : p.isSet 27 = true
  · rw [if_pos h, if_pos h, h]
    obtain ⟨e1, e2⟩ := block_seen p.block1 (hv h)
    rw [absFold_scalar cfg s 27 _ (.block1 (blockSeen p.block1)) hp (by decide) (by decide) (by decide) (by decide)
      (by simp [decodeScalar, intUpd_bytes badOption _ _ e1, e2]),
      setOpt'_eq s 27 (by decide)]
    simp only [Upd.apply, setOpt]
    rw [bit_idem]
  · simp [h, absFold, bit_off]

theorem piece_version (n v : Nat) (hn : n = 2049 ∨ n = 2053) (hv : v = 2048 ∨ v = 2112) :
    absFold cfg [(n, intOptionBytes v)] s = some s := by
  have hs : setOpt' s n = s := by rw [setOpt', if_neg (by omega)]
  rw [absFold_scalar cfg s n _ .none hp (by omega) (by omega) (by omega) (by omega), hs]
  · rfl
  · rw [decodeScalar, if_neg (by omega), if_neg (by omega), if_neg (by omega), if_neg (by omega),
      if_neg (by omega), if_neg (by omega), if_neg (by omega), if_pos (by omega),
      intUpd_bytes _ _ _ (by omega), if_neg (by omega)]

end pieces

theorem joinSegs_cons (sep : UInt8) (x : List UInt8) (t : List (List UInt8)) :
    joinSegs sep (x :: t) = x ++ t.flatMap (fun y => sep :: y) := by
  induction t generalizing x with
  | nil => simp [joinSegs]
  | cons y t ih =>
    have : joinSegs sep (x :: y :: t) = x ++ sep :: joinSegs sep (y :: t) := rfl
    rw [this, ih]; simp

theorem path_more (cfg : Cfg) (t : List (List UInt8)) (s : Packet (List UInt8)) (hp : Plain cfg s)
    (f : Nat → Bool) (hf : s.isSet = bit true 11 f) (hne : s.uriPath.length ≠ 0) :
    absFold cfg (t.map fun x => (11, x)) s
      = some { s with uriPath := s.uriPath ++ t.flatMap (fun y => 47 :: y) } := by
  induction t generalizing s with
  | nil => simp [absFold]
  | cons y t ih =>
    have hs : setOpt' s 11 = s := by
      rw [setOpt'_eq s 11 (by decide)]
      have : bit true 11 s.isSet = s.isSet := by
        rw [hf]; funext k; simp only [bit, Bool.true_and]; cases k == 11 <;> simp
      rw [this]
    have hp' : (cfg.tcp && isSignal s.code) = false := hp
    simp only [List.map_cons, absFold, hs, absOption, hp', hne, ↓reduceIte, Bool.false_eq_true]
    refine Eq.trans (ih { s with uriPath := s.uriPath ++ 47 :: y } hp hf (by simp)) ?_
    simp

theorem piece_path (cfg : Cfg) (segs : List (List UInt8)) (s : Packet (List UInt8)) (hp : Plain cfg s)
    (h0 : s.uriPath = []) (hne : segs ≠ []) (hs : segs = [[]] ∨ ∀ x ∈ segs, x ≠ []) :
    absFold cfg (segs.map fun x => (11, x)) s
      = some { s with uriPath := joinSegs 47 segs, isSet := bit true 11 s.isSet } := by
  cases segs with
  | nil => exact absurd rfl hne
  | cons x t =>
    have hp' : (cfg.tcp && isSignal s.code) = false := hp
    simp only [List.map_cons, absFold, setOpt'_eq s 11 (by decide), absOption, hp', h0,
      List.length_nil, ↓reduceIte, Bool.false_eq_true]
    cases t with
    | nil => simp [absFold, joinSegs]
    | cons y t =>
      have hx : x ≠ [] := by
        rcases hs with h | h
        · simp at h
        · exact h x (by simp)
      have := path_more cfg (y :: t) { s with isSet := bit true 11 s.isSet, uriPath := x } hp s.isSet rfl
        (by simpa using hx)
      rw [joinSegs_cons]
      exact this

theorem query_more (cfg : Cfg) (t : List (List UInt8)) (s : Packet (List UInt8)) (hp : Plain cfg s)
    (f : Nat → Bool) (hf : s.isSet = bit true 15 f) (hne : s.uriQuery.length ≠ 0) :
    absFold cfg (t.map fun x => (15, x)) s
      = some { s with uriQuery := s.uriQuery ++ t.flatMap (fun y => 38 :: y) } := by
  induction t generalizing s with
  | nil => simp [absFold]
  | cons y t ih =>
    have hs : setOpt' s 15 = s := by
      rw [setOpt'_eq s 15 (by decide)]
      have : bit true 15 s.isSet = s.isSet := by
        rw [hf]; funext k; simp only [bit, Bool.true_and]; cases k == 15 <;> simp
      rw [this]
    have hp' : (cfg.tcp && isSignal s.code) = false := hp
    simp only [List.map_cons, absFold, hs, absOption, hp', hne, ↓reduceIte, Bool.false_eq_true,
      show ¬ (15 = 11) by decide]
    refine Eq.trans (ih { s with uriQuery := s.uriQuery ++ 38 :: y } hp hf (by simp)) ?_
    simp

theorem piece_query (cfg : Cfg) (segs : List (List UInt8)) (s : Packet (List UInt8)) (hp : Plain cfg s)
    (h0 : s.uriQuery = []) (hne : segs ≠ []) (hs : segs = [[]] ∨ ∀ x ∈ segs, x ≠ []) :
    absFold cfg (segs.map fun x => (15, x)) s
      = some { s with uriQuery := joinSegs 38 segs, isSet := bit true 15 s.isSet } := by
  cases segs with
  | nil => exact absurd rfl hne
  | cons x t =>
    have hp' : (cfg.tcp && isSignal s.code) = false := hp
    simp only [List.map_cons, absFold, setOpt'_eq s 15 (by decide), absOption, hp', h0,
      List.length_nil, ↓reduceIte, Bool.false_eq_true, show ¬ (15 = 11) by decide]
    cases t with
    | nil => simp [absFold, joinSegs]
    | cons y t =>
      have hx : x ≠ [] := by
        rcases hs with h | h
        · simp at h
        · exact h x (by simp)
      have := query_more cfg (y :: t) { s with isSet := bit true 15 s.isSet, uriQuery := x } hp s.isSet rfl
        (by simpa using hx)
      rw [joinSegs_cons]
      exact this

theorem piece_path_opt (cfg : Cfg) (p : Packet CStr) (segs : List (List UInt8)) (s : Packet (List UInt8))
    (hp : Plain cfg s) (h0 : s.uriPath = [])
    (h : p.isSet 11 = true → segs ≠ [] ∧ (segs = [[]] ∨ ∀ x ∈ segs, x ≠ []) ∧
      text p.uriPath = joinSegs 47 segs) :
    absFold cfg (if p.isSet 11 then segs.map (fun x => (11, x)) else []) s
      = some { s with uriPath := if p.isSet 11 then text p.uriPath else s.uriPath,
                      isSet := bit (p.isSet 11) 11 s.isSet } := by
  by_cases hs : p.isSet 11 = true
  · obtain ⟨h1, h2, h3⟩ := h hs
    rw [if_pos hs, if_pos hs, hs, piece_path cfg segs s hp h0 h1 h2, h3]
  · simp [hs, absFold, bit_off]

theorem piece_query_opt (cfg : Cfg) (p : Packet CStr) (segs : List (List UInt8)) (s : Packet (List UInt8))
    (hp : Plain cfg s) (h0 : s.uriQuery = [])
    (h : p.isSet 15 = true → segs ≠ [] ∧ (segs = [[]] ∨ ∀ x ∈ segs, x ≠ []) ∧
      text p.uriQuery = joinSegs 38 segs) :
    absFold cfg (if p.isSet 15 then segs.map (fun x => (15, x)) else []) s
      = some { s with uriQuery := if p.isSet 15 then text p.uriQuery else s.uriQuery,
                      isSet := bit (p.isSet 15) 15 s.isSet } := by
  by_cases hs : p.isSet 15 = true
  · obtain ⟨h1, h2, h3⟩ := h hs
    rw [if_pos hs, if_pos hs, hs, piece_query cfg segs s hp h0 h1 h2, h3]
  · simp [hs, absFold, bit_off]

end Verif.CoapMsg
