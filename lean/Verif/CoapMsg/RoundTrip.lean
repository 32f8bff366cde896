import Verif.CoapMsg.SerLemmas

/-! Helper lemmas: serializing the options of a valid message and parsing them. -/

namespace Verif.CoapMsg

open Verif.Coap Verif.Coap.Spec Verif.CoapMsg.Spec

theorem formatVersion_some (cfg : Cfg) (n v : Nat) (h : formatVersion cfg n = some v) :
    v = 2048 ∨ v = 2112 := by
  unfold formatVersion at h
  split at h
  · simp at h; omega
  · split at h
    · simp at h; omega
    · simp at h

theorem formatVersion_none (cfg : Cfg) (n : Nat) (h : formatVersion cfg n = none) : ¬ hasVersion cfg n := by
  unfold formatVersion at h
  split at h
  · simp at h
  · split at h
    · simp at h
    · rename_i h1 h2
      rintro (h3 | h3)
      · exact h1 h3
      · exact h2 h3

theorem formatVersion_has (cfg : Cfg) (n v : Nat) (h : formatVersion cfg n = some v) : hasVersion cfg n := by
  unfold formatVersion at h
  split at h
  · exact Or.inl (by assumption)
  · split at h
    · exact Or.inr (by assumption)
    · simp at h

/-- The two version options at the end. -/
theorem versions_ok (cfg : Cfg) (p : Packet CStr) (s : Ser) (opts : List (Nat × List UInt8))
    (h : SerOk s opts) (hc : s.cur ≤ 60)
    (hv : p.isSet 17 = true → p.isSet 12 = true → hasVersion cfg p.contentFormat → hasVersion cfg p.accept) :
    ∃ vo, OptSeq 0 (opts ++ vo) (stepFormatVer cfg p (stepAcceptVer cfg p s)).out ∧
      (stepFormatVer cfg p (stepAcceptVer cfg p s)).len = (stepFormatVer cfg p (stepAcceptVer cfg p s)).out.length ∧
      (∀ o ∈ opts ++ vo, o.1 ≤ 2053) ∧
      ∀ q, Plain cfg q → absFold cfg vo q = some q := by
  -- the second step, from a state that can be continued
  have fin : ∀ (t : Ser) (o1 o2 : List (Nat × List UInt8)), SerOk t (o1 ++ o2) → t.cur ≤ 2049 →
      (∀ q, Plain cfg q → absFold cfg o2 q = some q) →
      ∃ vo, OptSeq 0 (o1 ++ vo) (stepFormatVer cfg p t).out ∧
        (stepFormatVer cfg p t).len = (stepFormatVer cfg p t).out.length ∧
        (∀ o ∈ o1 ++ vo, o.1 ≤ 2053) ∧
        ∀ q, Plain cfg q → absFold cfg vo q = some q := by
    intro t o1 o2 ht htc hf
    have plain : ∃ vo, OptSeq 0 (o1 ++ vo) t.out ∧ t.len = t.out.length ∧ (∀ o ∈ o1 ++ vo, o.1 ≤ 2053) ∧
        ∀ q, Plain cfg q → absFold cfg vo q = some q := by
      refine ⟨o2, ?_, ht.1, fun o ho => by have := ht.2.1 o ho; omega, hf⟩
      simpa using ht.2.2 [] [] (.nil _)
    unfold stepFormatVer
    split
    · split
      · rename_i v hfv
        have hs := serOk_int t _ 2053 v ht (by omega) (by decide)
        refine ⟨o2 ++ [(2053, intOptionBytes v)], ?_, hs.1, ?_, ?_⟩
        · have := hs.2.2 [] [] (.nil _)
          simpa using this
        · rw [← List.append_assoc]; exact hs.2.1
        · intro q hq
          rw [absFold_append, hf q hq]
          exact piece_version cfg q hq 2053 v (Or.inr rfl) (formatVersion_some cfg _ _ hfv)
      · exact plain
    · exact plain
  by_cases h17 : p.isSet 17 = true
  · cases hfa : formatVersion cfg p.accept with
    | some v =>
      have hs := serOk_int s opts 2049 v h (by omega) (by decide)
      have e : stepAcceptVer cfg p s = ⟨2049, s.len + (serIntOption 2049 s.cur v).1, s.out ++ (serIntOption 2049 s.cur v).2⟩ := by
        simp [stepAcceptVer, h17, hfa]
      rw [e]
      exact fin _ opts [(2049, intOptionBytes v)] hs (Nat.le_refl _)
        (fun q hq => piece_version cfg q hq 2049 v (Or.inl rfl) (formatVersion_some cfg _ _ hfa))
    | none =>
      have e : stepAcceptVer cfg p s = ⟨2049, s.len, s.out⟩ := by simp [stepAcceptVer, h17, hfa]
      have e2 : stepFormatVer cfg p ⟨2049, s.len, s.out⟩ = ⟨2049, s.len, s.out⟩ := by
        unfold stepFormatVer
        split
        · split
          · rename_i h12 _ v hfv
            exact absurd (hv h17 h12 (formatVersion_has cfg _ _ hfv)) (formatVersion_none cfg _ hfa)
          · rfl
        · rfl
      rw [e, e2]
      refine ⟨[], ?_, h.1, fun o ho => ?_, fun q _ => rfl⟩
      · simpa using h.2.2 [] [] (.nil _)
      · have := h.2.1 o (by simpa using ho); omega
  · have e : stepAcceptVer cfg p s = s := by simp [stepAcceptVer, h17]
    rw [e]
    exact fin s opts [] (by simpa using h) (by omega) (fun q _ => rfl)

/-- The message that the fold over the options of `p` gives. -/
def final (p : Packet CStr) (q : Packet (List UInt8)) : Packet (List UInt8) :=
  { q with
    uriHost := if p.isSet 3 then text p.uriHost else q.uriHost
    etag := if p.isSet 4 then p.etag else q.etag
    observe := if p.isSet 6 then p.observe else q.observe
    uriPort := if p.isSet 7 then p.uriPort else q.uriPort
    uriPath := if p.isSet 11 then text p.uriPath else q.uriPath
    contentFormat := if p.isSet 12 then p.contentFormat else q.contentFormat
    maxAge := if p.isSet 14 then p.maxAge else q.maxAge
    uriQuery := if p.isSet 15 then text p.uriQuery else q.uriQuery
    accept := if p.isSet 17 then p.accept else q.accept
    block2 := if p.isSet 23 then blockSeen p.block2 else q.block2
    block1 := if p.isSet 27 then blockSeen p.block1 else q.block1
    size2 := if p.isSet 28 then p.size2 else q.size2
    proxyUri := if p.isSet 35 then text p.proxyUri else q.proxyUri
    size1 := if p.isSet 60 then p.size1 else q.size1
    isSet := bit (p.isSet 60) 60 <| bit (p.isSet 35) 35 <| bit (p.isSet 28) 28 <| bit (p.isSet 27) 27 <|
      bit (p.isSet 23) 23 <| bit (p.isSet 17) 17 <| bit (p.isSet 15) 15 <| bit (p.isSet 14) 14 <|
      bit (p.isSet 12) 12 <| bit (p.isSet 11) 11 <| bit (p.isSet 7) 7 <| bit (p.isSet 6) 6 <|
      bit (p.isSet 4) 4 <| bit (p.isSet 3) 3 q.isSet }

theorem validFormat_lt (cfg : Cfg) (n : Nat) (h : validContentFormat cfg n = true) : n < 2 ^ 32 := by
  simp [validContentFormat] at h; omega

theorem validAccept_lt (cfg : Cfg) (n : Nat) (h : validAccept cfg n = true) : n < 2 ^ 32 := by
  simp [validAccept, validContentFormat] at h; omega

theorem serOptions_ok (cfg : Cfg) (p : Packet CStr) (hv : Valid cfg p) :
    ∃ s opts, serOptions cfg p = .ok s ∧ s.len = s.out.length ∧ OptSeq 0 opts s.out ∧
      (∀ o ∈ opts, o.1 < 2 ^ 32) ∧
      ∀ q, Plain cfg q → q.uriPath = [] → q.uriQuery = [] → absFold cfg opts q = some (final p q) := by
  unfold serOptions
  rw [hv.plain, Bool.and_false, if_neg (by decide)]
  have hetag : p.isSet 4 = true → StrOk ⟨p.etag, p.etag.length⟩ := fun h => by
    have := hv.etag h
    exact ⟨Nat.le_refl _, by simp only; omega⟩
  obtain ⟨s1, e1, o1, c1⟩ := stepStr_ok p ⟨0, 0, []⟩ [] 3 p.uriHost serOk_init (by simp) (by decide) hv.host
  obtain ⟨s2, e2, o2, c2⟩ := stepStr_ok p s1 _ 4 ⟨p.etag, p.etag.length⟩ o1 (by omega) (by decide) hetag
  obtain ⟨o3, c3⟩ := stepInt_ok p s2 _ 6 (toU32 p.observe) o2 (by omega) (by decide)
  obtain ⟨o4, c4⟩ := stepInt_ok p _ _ 7 p.uriPort o3 (by omega) (by decide)
  obtain ⟨s5, segs1, e5, o5, c5, g5⟩ := stepSplit_ok p _ _ 11 p.uriPath 47 (by decide) o4 (by omega) (by decide) hv.path
  obtain ⟨o6, c6⟩ := stepInt_ok p s5 _ 12 p.contentFormat o5 (by omega) (by decide)
  obtain ⟨o7, c7⟩ := stepInt_ok p _ _ 14 p.maxAge o6 (by omega) (by decide)
  obtain ⟨s8, segs2, e8, o8, c8, g8⟩ := stepSplit_ok p _ _ 15 p.uriQuery 38 (by decide) o7 (by omega) (by decide) hv.query
  obtain ⟨o9, c9⟩ := stepInt_ok p s8 _ 17 p.accept o8 (by omega) (by decide)
  obtain ⟨o10, c10⟩ := stepInt_ok p _ _ 23 (blockEncode p.block2.num p.block2.more p.block2.size) o9 (by omega) (by decide)
  obtain ⟨o11, c11⟩ := stepInt_ok p _ _ 27 (blockEncode p.block1.num p.block1.more p.block1.size) o10 (by omega) (by decide)
  obtain ⟨o12, c12⟩ := stepInt_ok p _ _ 28 p.size2 o11 (by omega) (by decide)
  obtain ⟨s13, e13, o13, c13⟩ := stepStr_ok p _ _ 35 p.proxyUri o12 (by omega) (by decide) hv.proxy
  obtain ⟨o14, c14⟩ := stepInt_ok p s13 _ 60 p.size1 o13 (by omega) (by decide)
  obtain ⟨vo, q1, q2, q3, q4⟩ := versions_ok cfg p _ _ o14 c14 hv.version
  simp only [e1, e2, e5, e8, e13, Out.ok_bind]
  refine ⟨_, _, rfl, q2, q1, fun o ho => by have := q3 o ho; omega, ?_⟩
  intro q hq h11 h15
  simp only [List.nil_append, List.append_assoc]
  rw [absFold_append, piece_host cfg p q hq]
  rw [Option.bind_some, absFold_append, piece_etag cfg p _ (by exact hq) hv.etag]
  rw [Option.bind_some, absFold_append, piece_observe cfg p _ (by exact hq) hv.observe]
  rw [Option.bind_some, absFold_append, piece_port cfg p _ (by exact hq) hv.port]
  rw [Option.bind_some, absFold_append, piece_path_opt cfg p segs1 _ (by exact hq) (by exact h11) g5]
  rw [Option.bind_some, absFold_append, piece_format cfg p _ (by exact hq) hv.format (fun h => validFormat_lt cfg _ (hv.format h))]
  rw [Option.bind_some, absFold_append, piece_maxAge cfg p _ (by exact hq) hv.maxAge]
  rw [Option.bind_some, absFold_append, piece_query_opt cfg p segs2 _ (by exact hq) (by exact h15) g8]
  rw [Option.bind_some, absFold_append, piece_accept cfg p _ (by exact hq) hv.accept (fun h => validAccept_lt cfg _ (hv.accept h))]
  rw [Option.bind_some, absFold_append, piece_block2 cfg p _ (by exact hq) hv.block2]
  rw [Option.bind_some, absFold_append, piece_block1 cfg p _ (by exact hq) hv.block1]
  rw [Option.bind_some, absFold_append, piece_size2 cfg p _ (by exact hq) hv.size2]
  rw [Option.bind_some, absFold_append, piece_proxy cfg p _ (by exact hq)]
  rw [Option.bind_some, absFold_append, piece_size1 cfg p _ (by exact hq) hv.size1]
  rw [Option.bind_some, q4 _ (by exact hq)]
  rfl

theorem optSeq_count (prev : Nat) (opts : List (Nat × List UInt8)) (bs : List UInt8) (h : OptSeq prev opts bs) :
    opts.length ≤ bs.length := by
  induction h with
  | nil => simp
  | cons prev num v hdr rest bs hle hw hr ih =>
    have hb := wire_unique _ _ _ hw
    have : 1 ≤ hdr.length := by rw [hb]; simp [setOptionHeader]
    simp only [List.length_cons, List.length_append]
    omega

/-- Parsing of an option region followed by nothing or by marker and payload. -/
theorem parseOptions_ok (cfg : Cfg) (pre bs pl : List UInt8) (tail : List UInt8)
    (opts : List (Nat × List UInt8)) (hseq : OptSeq 0 opts bs) (hlt : ∀ o ∈ opts, o.1 < 2 ^ 32)
    (htail : (tail = [] ∧ pl = []) ∨ tail = 0xFF :: pl)
    (c : Packet Span) (hsp : SpOk cfg { c with isSet := fun _ => false } pre.length 0)
    (p' : Packet (List UInt8)) (post : List UInt8)
    (hfold : absFold cfg opts ({ c with isSet := fun _ => false }.map
      fun s : Span => slice (pre ++ (bs ++ (tail ++ post))) s.off s.len) = some p')
    (hlen : (pre ++ (bs ++ tail)).length ≤ 4294967295) :
    ∃ q mem', parseOptions cfg false (pre ++ (bs ++ (tail ++ post))) (pre ++ (bs ++ tail)).length pre.length c
        = .ok (noError, q, mem') ∧
      (q.map fun s => slice mem' s.off s.len) = { p' with payload := pl } ∧
      mem'.length = (pre ++ (bs ++ (tail ++ post))).length := by
  have hcnt := optSeq_count _ _ _ hseq
  unfold parseOptions
  rw [if_neg (by omega)]
  generalize hmem : pre ++ (bs ++ (tail ++ post)) = mem at *
  have hml : mem.length = pre.length + (bs.length + (tail.length + post.length)) := by
    rw [← hmem]; simp
  have hdl : (pre ++ (bs ++ tail)).length = pre.length + (bs.length + tail.length) := by simp
  have hslice : slice mem pre.length bs.length = bs := by
    rw [← hmem]; simp [slice]
  rw [hdl]
  obtain ⟨mem', c', num', h1, h2, h3, h4, h5⟩ := optLoop_seq cfg (pre.length + (bs.length + tail.length)) 0 opts bs hseq
    (pre.length + (bs.length + tail.length) + 1 - opts.length) pre.length mem _ p' hsp hslice (by omega) (by omega)
    hlt hfold
  rw [show pre.length + (bs.length + tail.length) + 1 - opts.length + opts.length
    = pre.length + (bs.length + tail.length) + 1 by omega] at h1
  rw [show noError = 0 from rfl, h1]
  obtain ⟨f', hf'⟩ : ∃ f', pre.length + (bs.length + tail.length) + 1 - opts.length = f' + 1 :=
    ⟨_, (Nat.succ_pred_eq_of_pos (by omega)).symm⟩
  rw [hf', optLoop]
  rcases htail with ⟨ht, hpl⟩ | ht
  · subst ht; subst hpl
    rw [if_neg (by simp)]
    refine ⟨c', mem', rfl, ?_, by omega⟩
    rw [h2]
    simp [Packet.map, h3.payload, slice_zero]
  · subst ht
    rw [if_pos (by simp)]
    have hb : Out.get mem' (pre.length + bs.length) = .ok 0xFF := by
      apply get_eq_ok
      rw [h5 _ (Nat.le_refl _), ← hmem]
      rw [← List.append_assoc, ← List.length_append]
      simp
    rw [hb]
    simp only [Out.ok_bind]
    rw [if_pos (by decide)]
    refine ⟨_, mem', rfl, ?_, by omega⟩
    rw [h2]
    have hsl : slice mem' (pre.length + bs.length + 1) (pre.length + (bs.length + (0xFF :: pl).length) - (pre.length + bs.length + 1)) = pl := by
      rw [slice_congr mem mem' _ _ (fun k hk _ => h5 k (by omega)), ← hmem]
      rw [show pre.length + (bs.length + ((0xFF : UInt8) :: pl).length) - (pre.length + bs.length + 1) = pl.length by
        simp only [List.length_cons]; omega]
      rw [← List.append_assoc, ← List.length_append]
      simp [slice, ← List.drop_drop]
    simp only [Packet.map, hsl]

/-! ### Headers -/

/-- Header bytes before the token. -/
def headerOf {σ : Type} (tcp : Bool) (p : Packet σ) (optLen payloadLen : Nat) : List UInt8 :=
  if tcp then
    tcpHeader p (tcpComputeLength optLen payloadLen).1 (tcpComputeLength optLen payloadLen).2.1
      (tcpComputeLength optLen payloadLen).2.2
  else udpHeader p

theorem tcpExtBytes_length (e n : Nat) : (tcpExtBytes e n).length = n := by
  induction n with
  | zero => rfl
  | succ n ih => simp [tcpExtBytes, ih]

theorem headerOf_length {σ : Type} (tcp : Bool) (p : Packet σ) (o l : Nat) :
    (headerOf tcp p o l).length = if tcp then 2 + (tcpComputeLength o l).2.1 else 4 := by
  cases tcp with
  | false => rfl
  | true => simp [headerOf, tcpHeader, tcpExtBytes_length]; omega

theorem text_length (s : CStr) (h : s.len ≤ s.mem.length) : (text s).length = s.len := by
  simp [text, h]

/-- What `serialize` returns for a valid message. -/
theorem serialize_valid (cfg : Cfg) (maxHdr : Nat) (tcp : Bool) (p : Packet CStr) (bufferSize : Nat)
    (hv : Valid cfg p) :
    ∃ s opts, serOptions cfg p = .ok s ∧ OptSeq 0 opts s.out ∧ (∀ o ∈ opts, o.1 < 2 ^ 32) ∧
      (∀ q, Plain cfg q → q.uriPath = [] → q.uriQuery = [] → absFold cfg opts q = some (final p q)) ∧
      serialize cfg maxHdr tcp p bufferSize =
        (let head := headerOf tcp p s.out.length p.payload.len ++ p.token ++ s.out
         if !checkHeaderSize maxHdr head.length bufferSize then .ok none
         else if p.payload.len > 0 then
           if subSize bufferSize head.length < (p.payload.len + 1) % 2^32 then .ok none
           else .ok (some (head ++ 0xFF :: text p.payload))
         else .ok (some head)) := by
  obtain ⟨s, opts, h1, h2, h3, h4, h5⟩ := serOptions_ok cfg p hv
  refine ⟨s, opts, h1, h3, h4, h5, ?_⟩
  have hc := hv.code.1
  have hpl : sliceChk p.payload.mem 0 p.payload.len = .ok (text p.payload) := by
    rw [sliceChk, if_pos (by have := hv.payload; omega)]
    simp [slice, text]
  have hl : s.len + p.token.length + (if tcp then 2 + (tcpComputeLength s.len p.payload.len).2.1 else 4)
      = (headerOf tcp p s.out.length p.payload.len ++ p.token ++ s.out).length := by
    rw [List.length_append, List.length_append, headerOf_length, h2]
    omega
  unfold serialize
  simp only [h1, Out.ok_bind]
  cases tcp with
  | false =>
    simp only [Bool.false_eq_true, if_false, headerOf] at hl ⊢
    rw [hl]
    split
    · rfl
    · rw [if_neg (by omega), if_neg (by simp)]
      split
      · split
        · rfl
        · rw [hpl]; rfl
      · rfl
  | true =>
    simp only [if_true, headerOf, h2] at hl ⊢
    rw [hl]
    split
    · rfl
    · rw [if_neg (by omega), if_neg (by simp)]
      split
      · split
        · rfl
        · rw [hpl]; rfl
      · rfl

theorem same_final (p : Packet CStr) (q : Packet Span) (mem : List UInt8) (b : Packet (List UInt8))
    (hb : ∀ n, b.isSet n = false) (htok : b.token = p.token) (hcode : b.code = p.code)
    (h : (q.map fun s => slice mem s.off s.len) = { final p b with payload := text p.payload }) :
    Same p q mem := by
  have f : ∀ {α : Type} (g : Packet (List UInt8) → α),
      g (q.map fun s => slice mem s.off s.len) = g { final p b with payload := text p.payload } := fun g => by rw [h]
  constructor
  · intro n
    have := congrFun (f Packet.isSet) n
    simp only [Packet.map, final, bit, hb] at this
    rw [this]
    simp only [supported]
    by_cases e3 : n = 3; · subst e3; simp
    by_cases e4 : n = 4; · subst e4; simp
    by_cases e6 : n = 6; · subst e6; simp
    by_cases e7 : n = 7; · subst e7; simp
    by_cases e11 : n = 11; · subst e11; simp
    by_cases e12 : n = 12; · subst e12; simp
    by_cases e14 : n = 14; · subst e14; simp
    by_cases e15 : n = 15; · subst e15; simp
    by_cases e17 : n = 17; · subst e17; simp
    by_cases e23 : n = 23; · subst e23; simp
    by_cases e27 : n = 27; · subst e27; simp
    by_cases e28 : n = 28; · subst e28; simp
    by_cases e35 : n = 35; · subst e35; simp
    by_cases e60 : n = 60; · subst e60; simp
    simp [*]
  · intro hs; simpa [Packet.map, final, hs] using f Packet.uriHost
  · intro hs; simpa [Packet.map, final, hs] using f Packet.etag
  · intro hs; simpa [Packet.map, final, hs] using f Packet.observe
  · intro hs; simpa [Packet.map, final, hs] using f Packet.uriPort
  · intro hs; simpa [Packet.map, final, hs] using f Packet.uriPath
  · intro hs; simpa [Packet.map, final, hs] using f Packet.contentFormat
  · intro hs; simpa [Packet.map, final, hs] using f Packet.maxAge
  · intro hs; simpa [Packet.map, final, hs] using f Packet.uriQuery
  · intro hs; simpa [Packet.map, final, hs] using f Packet.accept
  · intro hs; simpa [Packet.map, final, hs] using f Packet.block2
  · intro hs; simpa [Packet.map, final, hs] using f Packet.block1
  · intro hs; simpa [Packet.map, final, hs] using f Packet.size2
  · intro hs; simpa [Packet.map, final, hs] using f Packet.proxyUri
  · intro hs; simpa [Packet.map, final, hs] using f Packet.size1
  · rw [← htok]; exact f Packet.token
  · rw [← hcode]; exact f Packet.code
  · exact f Packet.payload

/-- Parsing the options of a serialized message, whatever the header. -/
theorem options_roundtrip (cfg : Cfg) (p : Packet CStr) (hv : Valid cfg p) (s : Ser)
    (opts : List (Nat × List UInt8)) (h3 : OptSeq 0 opts s.out) (h4 : ∀ o ∈ opts, o.1 < 2 ^ 32)
    (h5 : ∀ q, Plain cfg q → q.uriPath = [] → q.uriQuery = [] → absFold cfg opts q = some (final p q))
    (pre post : List UInt8) (ver typ mid : Nat) (tail : List UInt8)
    (htail : tail = if p.payload.len > 0 then 0xFF :: text p.payload else [])
    (hlen : (pre ++ (s.out ++ tail)).length ≤ 4294967295) :
    ∃ q mem', parseOptions cfg false (pre ++ (s.out ++ (tail ++ post))) (pre ++ (s.out ++ tail)).length pre.length
        { zeroPacket (⟨0, 0⟩ : Span) with version := ver, type := typ, code := p.code, mid := mid, token := p.token }
        = .ok (noError, q, mem') ∧ Same p q mem' ∧ q.version = ver ∧ q.type = typ ∧ q.mid = mid ∧
        mem'.length = (pre ++ (s.out ++ (tail ++ post))).length := by
  have ht : (tail = [] ∧ text p.payload = []) ∨ tail = 0xFF :: text p.payload := by
    rw [htail]
    split
    · exact Or.inr rfl
    · refine Or.inl ⟨rfl, ?_⟩
      have : p.payload.len = 0 := by omega
      simp [text, this]
  let b : Packet (List UInt8) :=
    { zeroPacket ([] : List UInt8) with version := ver, type := typ, code := p.code, mid := mid, token := p.token }
  have hplain : Plain cfg b := by
    show (cfg.tcp && isSignal p.code) = false
    rw [hv.plain, Bool.and_false]
  obtain ⟨q, mem', e1, e2, e3⟩ := parseOptions_ok cfg pre s.out (text p.payload) tail opts h3 h4 ht
    { zeroPacket (⟨0, 0⟩ : Span) with version := ver, type := typ, code := p.code, mid := mid, token := p.token }
    (by constructor <;> simp [zeroPacket])
    (final p b) post
    (by
      have : (Packet.map (fun sp : Span => slice (pre ++ (s.out ++ (tail ++ post))) sp.off sp.len)
          { zeroPacket (⟨0, 0⟩ : Span) with
            version := ver, type := typ, code := p.code, mid := mid, token := p.token, isSet := fun _ => false }) = b := by
        simp only [Packet.map, zeroPacket, slice_zero]; rfl
      rw [← h5 b hplain rfl rfl]
      exact congrArg _ this) hlen
  refine ⟨q, mem', e1, same_final p q mem' b (fun _ => rfl) rfl rfl e2, ?_, ?_, ?_, e3⟩
  · exact congrArg Packet.version e2
  · exact congrArg Packet.type e2
  · exact congrArg Packet.mid e2

theorem nibbles (a b : Nat) (ha : a < 16) (hb : b < 16) :
    ((UInt8.ofNat ((0xF0 &&& (a <<< 4)) ||| (0x0F &&& b))).toNat &&& 0x0F) = b ∧
    (0xF0 &&& (UInt8.ofNat ((0xF0 &&& (a <<< 4)) ||| (0x0F &&& b))).toNat) >>> 4 = a := by
  have : ∀ a < 16, ∀ b < 16,
    ((UInt8.ofNat ((0xF0 &&& (a <<< 4)) ||| (0x0F &&& b))).toNat &&& 0x0F) = b ∧
    (0xF0 &&& (UInt8.ofNat ((0xF0 &&& (a <<< 4)) ||| (0x0F &&& b))).toNat) >>> 4 = a := by decide +kernel
  exact this a ha b hb

theorem udp_first (t l : Nat) (ht : t < 4) (hl : l ≤ 8) :
    ((UInt8.ofNat ((0xC0 &&& (1 <<< 6)) ||| (0x30 &&& (t <<< 4)) ||| (0x0F &&& l))).toNat &&& 0x0F) = l ∧
    ((UInt8.ofNat ((0xC0 &&& (1 <<< 6)) ||| (0x30 &&& (t <<< 4)) ||| (0x0F &&& l))).toNat &&& 0xC0) >>> 6 = 1 ∧
    ((UInt8.ofNat ((0xC0 &&& (1 <<< 6)) ||| (0x30 &&& (t <<< 4)) ||| (0x0F &&& l))).toNat &&& 0x30) >>> 4 = t := by
  have : ∀ t < 4, ∀ l < 9,
    ((UInt8.ofNat ((0xC0 &&& (1 <<< 6)) ||| (0x30 &&& (t <<< 4)) ||| (0x0F &&& l))).toNat &&& 0x0F) = l ∧
    ((UInt8.ofNat ((0xC0 &&& (1 <<< 6)) ||| (0x30 &&& (t <<< 4)) ||| (0x0F &&& l))).toNat &&& 0xC0) >>> 6 = 1 ∧
    ((UInt8.ofNat ((0xC0 &&& (1 <<< 6)) ||| (0x30 &&& (t <<< 4)) ||| (0x0F &&& l))).toNat &&& 0x30) >>> 4 = t := by
    decide +kernel
  exact this t ht l (by omega)

theorem mid_bytes (m : Nat) (h : m < 65536) :
    ((UInt8.ofNat (m >>> 8)).toNat <<< 8) ||| (UInt8.ofNat m).toNat = m := by
  rw [← Nat.shiftLeft_add_eq_or_of_lt (by exact (UInt8.ofNat m).toNat_lt)]
  simp only [UInt8.toNat_ofNat', Nat.shiftLeft_eq, Nat.shiftRight_eq_div_pow]
  omega

/-- Bytes of a successfully serialized valid message. -/
theorem serialize_some (cfg : Cfg) (maxHdr : Nat) (tcp : Bool) (p : Packet CStr) (bufferSize : Nat)
    (hv : Valid cfg p) (msg : List UInt8) (hser : serialize cfg maxHdr tcp p bufferSize = .ok (some msg)) :
    ∃ (s : Ser) (opts : _) (tail : List UInt8), OptSeq 0 opts s.out ∧ (∀ o ∈ opts, o.1 < 2 ^ 32) ∧
      (∀ q, Plain cfg q → q.uriPath = [] → q.uriQuery = [] → absFold cfg opts q = some (final p q)) ∧
      tail = (if p.payload.len > 0 then 0xFF :: text p.payload else []) ∧
      msg = (headerOf tcp p s.out.length p.payload.len ++ p.token) ++ (s.out ++ tail) := by
  obtain ⟨s, opts, h1, h3, h4, h5, hs⟩ := serialize_valid cfg maxHdr tcp p bufferSize hv
  rw [hser] at hs
  refine ⟨s, opts, _, h3, h4, h5, rfl, ?_⟩
  dsimp only at hs
  split at hs
  · simp at hs
  · split at hs
    · split at hs
      · simp at hs
      · rename_i h _
        simp only [Out.ok.injEq, Option.some.injEq] at hs
        rw [hs, if_pos h]; simp
    · rename_i h
      simp only [Out.ok.injEq, Option.some.injEq] at hs
      rw [hs, if_neg h]; simp

/-! ### TCP length header -/

theorem tcpExt_bytes (e : Nat) (n : Nat) : ∀ (pre rest : List UInt8),
    tcpExt (pre ++ (tcpExtBytes e n ++ rest)) pre.length n = .ok (e % 256 ^ n) := by
  induction n with
  | zero => intro pre rest; simp [tcpExt, Nat.mod_one]
  | succ n ih =>
    intro pre rest
    have h0 : Out.get (pre ++ (tcpExtBytes e (n + 1) ++ rest)) pre.length = .ok (UInt8.ofNat (e >>> (8 * n))) := by
      apply get_eq_ok
      simp [tcpExtBytes]
    have h1 := ih (pre ++ [UInt8.ofNat (e >>> (8 * n))]) rest
    have hm : pre ++ [UInt8.ofNat (e >>> (8 * n))] ++ (tcpExtBytes e n ++ rest)
        = pre ++ (tcpExtBytes e (n + 1) ++ rest) := by simp [tcpExtBytes]
    rw [hm, List.length_append, List.length_singleton] at h1
    rw [tcpExt, h0, Out.ok_bind, h1, Out.ok_bind]
    congr 1
    have hp : (2 : Nat) ^ (8 * n) = 256 ^ n := by rw [Nat.pow_mul]
    rw [Nat.mod_pow_succ, Nat.shiftLeft_eq, Nat.shiftRight_eq_div_pow, hp, UInt8.toNat_ofNat',
      Nat.mul_comm, Nat.add_comm]

/-- Length of options, marker and payload. -/
def bodyLen (optLen payloadLen : Nat) : Nat := optLen + (if payloadLen > 0 then 1 + payloadLen else 0)

theorem tcpCompute_cases (o l : Nat) (h : bodyLen o l < 65805 + 2 ^ 32) :
    let c := tcpComputeLength o l
    (c = (bodyLen o l, 0, 0) ∧ bodyLen o l < 13) ∨
    (∃ n d, (n, d) ∈ [(13, 13), (14, 269), (15, 65805)] ∧ c.1 = n ∧ c.2.1 = 1 <<< (n - 13) ∧
      c.2.2 + d = bodyLen o l ∧ c.2.2 < 256 ^ (1 <<< (n - 13))) := by
  have e : tcpComputeLength o l = (if bodyLen o l < 13 then (bodyLen o l, 0, 0)
    else if bodyLen o l < 269 then (13, 1, bodyLen o l - 13)
    else if bodyLen o l < 65805 then (14, 2, bodyLen o l - 269)
    else (15, 4, bodyLen o l - 65805)) := rfl
  dsimp only
  rw [e]
  generalize bodyLen o l = t at *
  by_cases h1 : t < 13
  · left; rw [if_pos h1]; exact ⟨rfl, h1⟩
  right
  rw [if_neg h1]
  by_cases h2 : t < 269
  · rw [if_pos h2]; exact ⟨13, 13, by simp, rfl, rfl, by simp; omega, by simp; omega⟩
  rw [if_neg h2]
  by_cases h3 : t < 65805
  · rw [if_pos h3]; exact ⟨14, 269, by simp, rfl, rfl, by simp; omega, by simp; omega⟩
  rw [if_neg h3]
  exact ⟨15, 65805, by simp, rfl, rfl, by simp; omega, by simp; omega⟩

theorem tcpParseLength_header {σ : Type} (p : Packet σ) (ht : p.token.length ≤ 8) (o l : Nat) (h : bodyLen o l < 65805 + 2 ^ 32)
    (rest : List UInt8) (n : Nat) (hn : 1 + (tcpComputeLength o l).2.1 ≤ n) :
    tcpParseLength (headerOf true p o l ++ rest) n = .ok (some (bodyLen o l, (tcpComputeLength o l).2.1)) := by
  unfold tcpParseLength
  rw [if_neg (by omega)]
  have h0 : Out.get (headerOf true p o l ++ rest) 0
      = .ok (UInt8.ofNat ((0xF0 &&& ((tcpComputeLength o l).1 <<< 4)) ||| (0x0F &&& p.token.length))) := rfl
  have hm : headerOf true p o l ++ rest
      = [UInt8.ofNat ((0xF0 &&& ((tcpComputeLength o l).1 <<< 4)) ||| (0x0F &&& p.token.length))]
        ++ (tcpExtBytes (tcpComputeLength o l).2.2 (tcpComputeLength o l).2.1 ++ (UInt8.ofNat p.code :: rest)) := by
    simp [headerOf, tcpHeader]
  rw [h0]
  simp only [Out.ok_bind]
  rcases tcpCompute_cases o l h with ⟨hc, hl⟩ | ⟨a, d, had, hc1, hc2, hc3, hc4⟩
  · rw [hc] at hn ⊢
    simp only at hn ⊢
    rw [(nibbles _ _ (by omega) (by omega)).2, if_pos hl]
  · have ha : 13 ≤ a ∧ a < 16 := by simp at had; omega
    rw [hm, hc1, (nibbles _ _ (by omega) (by omega)).2, if_neg (by omega), if_neg (by rw [← hc2]; omega), hc2]
    have := tcpExt_bytes (tcpComputeLength o l).2.2 (1 <<< (a - 13))
      [UInt8.ofNat ((0xF0 &&& (a <<< 4)) ||| (0x0F &&& p.token.length))] (UInt8.ofNat p.code :: rest)
    rw [List.length_singleton] at this
    rw [this, Out.ok_bind, Nat.mod_eq_of_lt hc4]
    have hd : (if a = 13 then 13 else if a = 14 then 269 else 65805) = d := by
      simp at had
      rcases had with ⟨rfl, rfl⟩ | ⟨rfl, rfl⟩ | ⟨rfl, rfl⟩ <;> rfl
    rw [hd, hc3]

theorem tcpPacketSize_header {σ : Type} (p : Packet σ) (ht : p.token.length ≤ 8) (o l : Nat) (h : bodyLen o l < 65805 + 2 ^ 32)
    (rest : List UInt8) (n : Nat) (hn : 1 + (tcpComputeLength o l).2.1 ≤ n) :
    tcpPacketSize (headerOf true p o l ++ rest) n
      = .ok (some (2 + (tcpComputeLength o l).2.1 + p.token.length + bodyLen o l)) := by
  have h0 : Out.get (headerOf true p o l ++ rest) 0
      = .ok (UInt8.ofNat ((0xF0 &&& ((tcpComputeLength o l).1 <<< 4)) ||| (0x0F &&& p.token.length))) := rfl
  have hlt : (tcpComputeLength o l).1 < 16 := by
    rcases tcpCompute_cases o l h with ⟨hc, hl⟩ | ⟨a, d, had, hc1, _⟩
    · rw [hc]; simp only; omega
    · rw [hc1]; simp at had; omega
  unfold tcpPacketSize
  rw [tcpParseLength_header p ht o l h rest n hn, h0]
  simp only [Out.ok_bind]
  rw [Nat.and_comm, (nibbles _ _ hlt (by omega)).1]

end Verif.CoapMsg
