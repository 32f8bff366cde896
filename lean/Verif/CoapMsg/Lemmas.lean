import Verif.CoapMsg.Model
import Verif.Coap.Lemmas

/-! Helper lemmas: the option loop computes, on message contents, what a fold
over the decoded option list computes. -/

namespace Verif.CoapMsg

open Verif.Coap Verif.Coap.Spec

/-- The packet with every string replaced by `f` of it. -/
def Packet.map {σ τ : Type} (f : σ → τ) (p : Packet σ) : Packet τ where
  version := p.version
  type := p.type
  code := p.code
  mid := p.mid
  token := p.token
  isSet := p.isSet
  contentFormat := p.contentFormat
  maxAge := p.maxAge
  etag := p.etag
  proxyUri := f p.proxyUri
  uriHost := f p.uriHost
  uriPort := p.uriPort
  uriPath := f p.uriPath
  observe := p.observe
  accept := p.accept
  block2 := p.block2
  block1 := p.block1
  size2 := p.size2
  size1 := p.size1
  uriQuery := f p.uriQuery
  maxMsgSize := p.maxMsgSize
  blockwiseTransfer := p.blockwiseTransfer
  custody := p.custody
  altAddr := f p.altAddr
  holdOff := p.holdOff
  badCsm := p.badCsm
  payload := f p.payload

/-- `SET_OPTION` guarded by the size of the bitmap (messaging/coap/coap.c:1069-1073). -/
def setOpt' {σ : Type} (p : Packet σ) (n : Nat) : Packet σ := if n ≤ 60 then setOpt p n else p

theorem map_setOpt' {σ τ : Type} (f : σ → τ) (p : Packet σ) (n : Nat) :
    (setOpt' p n).map f = setOpt' (p.map f) n := by
  unfold setOpt'; split <;> rfl

theorem parseSignal_map {σ τ : Type} (f : σ → τ) (p : Packet σ) (n : Nat) (v : List UInt8) (r : σ) :
    parseSignal (p.map f) n v (f r) = ((parseSignal p n v r).1, (parseSignal p n v r).2.map f) := by
  have hc : (p.map f).code = p.code := rfl
  unfold parseSignal
  rw [hc]
  repeat' split
  all_goals rfl

theorem parseScalar_map {σ τ : Type} (cfg : Cfg) (f : σ → τ) (p : Packet σ) (n : Nat) (v : List UInt8) :
    parseScalar cfg (p.map f) n v = ((parseScalar cfg p n v).1, (parseScalar cfg p n v).2.map f) := by
  unfold parseScalar
  simp only [Prod.mk.injEq, true_and]
  cases (decodeScalar cfg n v).2 <;> rfl

/-- What one option does to the decoded message. -/
def absOption (cfg : Cfg) (p : Packet (List UInt8)) (num : Nat) (v : List UInt8) :
    Nat × Packet (List UInt8) :=
  if cfg.tcp && isSignal p.code then parseSignal p num v v
  else if num = 11 then
    (noError, { p with uriPath := if p.uriPath.length = 0 then v else p.uriPath ++ 47 :: v })
  else if num = 15 then
    (noError, { p with uriQuery := if p.uriQuery.length = 0 then v else p.uriQuery ++ 38 :: v })
  else if num = 35 then (noError, { p with proxyUri := v })
  else if num = 3 then (noError, { p with uriHost := v })
  else parseScalar cfg p num v

/-- Where the strings of a partly parsed message lie: before `pos`, and in the
order of the option numbers. -/
structure SpOk (cfg : Cfg) (c : Packet Span) (pos num : Nat) : Prop where
  hostEnd : c.uriHost.off + c.uriHost.len ≤ pos
  pathEnd : c.uriPath.off + c.uriPath.len ≤ pos
  queryEnd : c.uriQuery.off + c.uriQuery.len ≤ pos
  proxyEnd : c.proxyUri.off + c.proxyUri.len ≤ pos
  altEnd : c.altAddr.off + c.altAddr.len ≤ pos
  payload : c.payload = ⟨0, 0⟩
  pathHost : c.uriPath.len = 0 ∨ c.uriHost.off + c.uriHost.len ≤ c.uriPath.off
  queryBefore : c.uriQuery.len = 0 ∨ (c.uriHost.off + c.uriHost.len ≤ c.uriQuery.off ∧
    c.uriPath.off + c.uriPath.len ≤ c.uriQuery.off)
  n11 : num < 11 → c.uriPath.len = 0
  n15 : num < 15 → c.uriQuery.len = 0
  n35 : num < 35 → c.proxyUri.len = 0
  alt : (cfg.tcp && isSignal c.code) = false → c.altAddr.len = 0

theorem slice_zero {α : Type u} (l : List α) (o : Nat) : slice l o 0 = [] := by simp [slice]

theorem slice_congr {α : Type u} (l l' : List α) (o n : Nat)
    (h : ∀ k, o ≤ k → k < o + n → l'[k]? = l[k]?) : slice l' o n = slice l o n := by
  apply List.ext_getElem?
  intro i
  rw [getElem?_slice, getElem?_slice]
  by_cases hi : i < n
  · rw [if_pos hi, if_pos hi, h _ (by omega) (by omega)]
  · rw [if_neg hi, if_neg hi]

theorem parseSignal_strs (p : Packet Span) (n : Nat) (v : List UInt8) (r : Span) :
    let q := (parseSignal p n v r).2
    q.uriHost = p.uriHost ∧ q.uriPath = p.uriPath ∧ q.uriQuery = p.uriQuery ∧
    q.proxyUri = p.proxyUri ∧ q.payload = p.payload ∧ q.code = p.code ∧
    (q.altAddr = p.altAddr ∨ q.altAddr = r) := by
  unfold parseSignal
  repeat' split
  all_goals first
    | exact ⟨rfl, rfl, rfl, rfl, rfl, rfl, .inl rfl⟩
    | exact ⟨rfl, rfl, rfl, rfl, rfl, rfl, .inr rfl⟩

theorem parseScalar_strs {σ : Type} (cfg : Cfg) (p : Packet σ) (n : Nat) (v : List UInt8) :
    let q := (parseScalar cfg p n v).2
    q.uriHost = p.uriHost ∧ q.uriPath = p.uriPath ∧ q.uriQuery = p.uriQuery ∧
    q.proxyUri = p.proxyUri ∧ q.payload = p.payload ∧ q.code = p.code ∧ q.altAddr = p.altAddr := by
  unfold parseScalar
  simp only
  cases (decodeScalar cfg n v).2
  all_goals exact ⟨rfl, rfl, rfl, rfl, rfl, rfl, rfl⟩

theorem spOk_setOpt' (cfg : Cfg) (c : Packet Span) (pos num n : Nat) (h : SpOk cfg c pos num) :
    SpOk cfg (setOpt' c n) pos num := by
  unfold setOpt'; split
  · obtain ⟨a1, a2, a3, a4, a5, a6, a7, a8, a9, a10, a11, a12⟩ := h
    exact ⟨a1, a2, a3, a4, a5, a6, a7, a8, a9, a10, a11, a12⟩
  · exact h

/-- One option: the real parser follows `absOption`. -/
theorem parseOption_sim (cfg : Cfg) (mem : List UInt8) (c : Packet Span) (pos num num' q l : Nat)
    (hs : SpOk cfg c pos num) (hnum : num ≤ num') (hq : pos < q) (hql : q + l ≤ mem.length) :
    ∃ s c' mem', parseOption cfg false mem c num' q l = .ok (s, c', mem') ∧
      absOption cfg (c.map fun s => slice mem s.off s.len) num' (slice mem q l)
        = (s, c'.map fun s => slice mem' s.off s.len) ∧
      SpOk cfg c' (q + l) num' ∧ mem'.length = mem.length ∧
      (∀ k, q + l ≤ k → mem'[k]? = mem[k]?) := by
  have hcode : (c.map fun s => slice mem s.off s.len).code = c.code := rfl
  obtain ⟨a1, a2, a3, a4, a5, a6, a7, a8, a9, a10, a11, a12⟩ := hs
  unfold parseOption absOption
  rw [sliceChk, if_pos hql, hcode]
  simp only [Out.ok_bind]
  by_cases hsig : (cfg.tcp && isSignal c.code) = true
  · rw [if_pos hsig, if_pos hsig]
    obtain ⟨h1, h2, h3, h4, h5, h6, h7⟩ := parseSignal_strs c num' (slice mem q l) ⟨q, l⟩
    refine ⟨_, _, _, rfl, ?_, ?_, rfl, fun _ _ => rfl⟩
    · exact parseSignal_map (fun s : Span => slice mem s.off s.len) c num' (slice mem q l) ⟨q, l⟩
    · constructor
      · rw [h1]; omega
      · rw [h2]; omega
      · rw [h3]; omega
      · rw [h4]; omega
      · rcases h7 with h | h
        · rw [h]; omega
        · rw [h]; exact Nat.le_refl _
      · rw [h5]; exact a6
      · rw [h1, h2]; exact a7
      · rw [h1, h2, h3]; exact a8
      · intro h; rw [h2]; exact a9 (by omega)
      · intro h; rw [h3]; exact a10 (by omega)
      · intro h; rw [h4]; exact a11 (by omega)
      · intro h; rw [h6] at h; rw [h] at hsig; exact absurd hsig (by decide)
  · have hsig' : (cfg.tcp && isSignal c.code) = false := by simpa using hsig
    have halt := a12 hsig'
    rw [if_neg hsig, if_neg hsig]
    by_cases h11 : num' = 11
    · rw [if_pos h11, if_pos h11, if_neg (by decide)]
      obtain ⟨mem', d', e, hl, hsl, hdl, hdo, hk⟩ := mergeMulti_spec mem c.uriPath q l 47 (by omega) hql
      rw [e]
      have hq0 := a10 (by omega)
      have hp0 := a11 (by omega)
      refine ⟨_, _, _, rfl, ?_, ?_, hl, fun k hk2 => hk k (by omega)⟩
      · simp only [Prod.mk.injEq, true_and]
        have hlp : (c.map fun s => slice mem s.off s.len).uriPath.length = c.uriPath.len :=
          length_slice _ _ _ (by omega)
        rw [hlp]
        simp only [Packet.map, Packet.mk.injEq, true_and]
        refine ⟨?_, ?_, hsl.symm, ?_, ?_, ?_⟩
        · rw [hp0, slice_zero, slice_zero]
        · symm
          apply slice_congr
          intro k hk1 hk2
          exact hk k (by omega)
        · rw [hq0, slice_zero, slice_zero]
        · rw [halt, slice_zero, slice_zero]
        · rw [a6]; simp [slice_zero]
      · constructor
        · simp only; omega
        · simp only; rw [hdl, hdo]; split <;> omega
        · simp only; omega
        · simp only; omega
        · simp only; omega
        · exact a6
        · simp only; rw [hdl, hdo]
          by_cases hz : c.uriPath.len = 0
          · rw [if_pos hz, if_pos hz]; omega
          · rw [if_neg hz, if_neg hz]; omega
        · left; exact hq0
        · omega
        · intro _; exact hq0
        · intro _; exact hp0
        · exact a12
    · rw [if_neg h11, if_neg h11]
      by_cases h15 : num' = 15
      · rw [if_pos h15, if_pos h15, if_neg (by decide)]
        obtain ⟨mem', d', e, hl, hsl, hdl, hdo, hk⟩ := mergeMulti_spec mem c.uriQuery q l 38 (by omega) hql
        rw [e]
        have hp0 := a11 (by omega)
        refine ⟨_, _, _, rfl, ?_, ?_, hl, fun k hk2 => hk k (by omega)⟩
        · simp only [Prod.mk.injEq, true_and]
          have hlp : (c.map fun s => slice mem s.off s.len).uriQuery.length = c.uriQuery.len :=
            length_slice _ _ _ (by omega)
          rw [hlp]
          simp only [Packet.map, Packet.mk.injEq, true_and]
          refine ⟨?_, ?_, ?_, hsl.symm, ?_, ?_⟩
          · rw [hp0, slice_zero, slice_zero]
          · symm
            apply slice_congr
            intro k hk1 hk2
            exact hk k (by omega)
          · symm
            apply slice_congr
            intro k hk1 hk2
            exact hk k (by omega)
          · rw [halt, slice_zero, slice_zero]
          · rw [a6]; simp [slice_zero]
        · constructor
          · simp only; omega
          · simp only; omega
          · simp only; rw [hdl, hdo]; split <;> omega
          · simp only; omega
          · simp only; omega
          · exact a6
          · exact a7
          · simp only; rw [hdl, hdo]
            by_cases hz : c.uriQuery.len = 0
            · rw [if_pos hz, if_pos hz]; omega
            · rw [if_neg hz, if_neg hz]; omega
          · omega
          · omega
          · intro _; exact hp0
          · exact a12
      · rw [if_neg h15, if_neg h15]
        by_cases h35 : num' = 35
        · rw [if_pos h35, if_pos h35, if_neg (by decide)]
          refine ⟨_, _, _, rfl, rfl, ?_, rfl, fun _ _ => rfl⟩
          constructor
          · simp only; omega
          · simp only; omega
          · simp only; omega
          · exact Nat.le_refl _
          · simp only; omega
          · exact a6
          · exact a7
          · exact a8
          · omega
          · omega
          · omega
          · exact a12
        · rw [if_neg h35, if_neg h35]
          by_cases h3 : num' = 3
          · rw [if_pos h3, if_pos h3]
            have hp := a9 (by omega)
            have hqz := a10 (by omega)
            refine ⟨_, _, _, rfl, rfl, ?_, rfl, fun _ _ => rfl⟩
            constructor
            · exact Nat.le_refl _
            · simp only; omega
            · simp only; omega
            · simp only; omega
            · simp only; omega
            · exact a6
            · left; exact hp
            · left; exact hqz
            · intro _; exact hp
            · intro _; exact hqz
            · intro _; exact a11 (by omega)
            · exact a12
          · rw [if_neg h3, if_neg h3]
            obtain ⟨h1, h2, h3, h4, h5, h6, h7⟩ := parseScalar_strs cfg c num' (slice mem q l)
            refine ⟨_, _, _, rfl, parseScalar_map cfg _ c num' _, ?_, rfl, fun _ _ => rfl⟩
            constructor
            · rw [h1]; omega
            · rw [h2]; omega
            · rw [h3]; omega
            · rw [h4]; omega
            · rw [h7]; omega
            · rw [h5]; exact a6
            · rw [h1, h2]; exact a7
            · rw [h1, h2, h3]; exact a8
            · intro h; rw [h2]; exact a9 (by omega)
            · intro h; rw [h3]; exact a10 (by omega)
            · intro h; rw [h4]; exact a11 (by omega)
            · intro h; rw [h7]; rw [h6] at h; exact a12 h

/-- Fold of `absOption` over decoded options; `none` when one is refused. -/
def absFold (cfg : Cfg) : List (Nat × List UInt8) → Packet (List UInt8) → Option (Packet (List UInt8))
  | [], p => some p
  | (n, v) :: t, p =>
    let r := absOption cfg (setOpt' p n) n v
    if r.1 = noError then absFold cfg t r.2 else none

theorem absFold_append (cfg : Cfg) (a b : List (Nat × List UInt8)) (p : Packet (List UInt8)) :
    absFold cfg (a ++ b) p = (absFold cfg a p).bind (absFold cfg b) := by
  induction a generalizing p with
  | nil => rfl
  | cons x t ih =>
    obtain ⟨n, v⟩ := x
    simp only [List.cons_append, absFold]
    split
    · exact ih _
    · rfl

theorem not_marker (d l : Nat) :
    ¬ (UInt8.ofNat ((optionNibble d <<< 4) ||| optionNibble l)) &&& 0xF0 = 0xF0 := by
  intro h
  have h2 := congrArg UInt8.toNat h
  rw [UInt8.toNat_and, header_byte] at h2
  have n1 := nibble_le d
  have n2 := nibble_le l
  generalize optionNibble d = a at *
  generalize optionNibble l = b at *
  have : ∀ a < 15, ∀ b < 15, ¬ (a * 16 + b) &&& 240 = 240 := by decide
  exact this a (by omega) b (by omega) h2

/-- The loop over a well-formed option sequence. -/
theorem optLoop_seq (cfg : Cfg) (dataLen : Nat) (prev : Nat) (opts : List (Nat × List UInt8))
    (bs : List UInt8) (hseq : OptSeq prev opts bs) :
    ∀ (f pos : Nat) (mem : List UInt8) (c : Packet Span) (p' : Packet (List UInt8)),
      SpOk cfg c pos prev →
      slice mem pos bs.length = bs → pos + bs.length ≤ dataLen → dataLen ≤ mem.length →
      (∀ o ∈ opts, o.1 < 2 ^ 32) →
      absFold cfg opts (c.map fun s => slice mem s.off s.len) = some p' →
      ∃ mem' c' num', optLoop cfg false dataLen (f + opts.length) mem pos prev c 0
          = optLoop cfg false dataLen f mem' (pos + bs.length) num' c' 0 ∧
        p' = (c'.map fun s => slice mem' s.off s.len) ∧
        SpOk cfg c' (pos + bs.length) num' ∧ mem'.length = mem.length ∧
        (∀ k, pos + bs.length ≤ k → mem'[k]? = mem[k]?) := by
  induction hseq with
  | nil prev =>
    intro f pos mem c p' hsp _ hd hm _ hfold
    simp only [absFold, Option.some.injEq] at hfold
    exact ⟨mem, c, prev, rfl, hfold.symm, hsp, rfl, fun _ _ => rfl⟩
  | cons prev num v hdr rest bs hle hw hr ih =>
    intro f pos mem c p' hsp hsl hd hm hlt hfold
    have hwl := wire_le _ _ _ hw
    have hhdr := wire_unique _ _ _ hw
    have hb := hhdr
    simp only [List.length_append] at hd hsl ⊢
    have hn32 := hlt (num, v) (by simp)
    simp only at hn32
    -- split the memory
    have hmem : mem = mem.take pos ++ (hdr ++ (v ++ (bs ++ mem.drop (pos + (hdr.length + (v.length + bs.length)))))) := by
      have h1 : mem = mem.take pos ++ mem.drop pos := (List.take_append_drop pos mem).symm
      have h2 : mem.drop pos = slice mem pos (hdr.length + (v.length + bs.length))
          ++ mem.drop (pos + (hdr.length + (v.length + bs.length))) := by
        unfold slice
        rw [← List.drop_drop]; exact (List.take_append_drop _ _).symm
      rw [hsl] at h2
      have h3 := h1
      rw [h2] at h3
      rw [show hdr ++ (v ++ bs) ++ mem.drop (pos + (hdr.length + (v.length + bs.length)))
        = hdr ++ (v ++ (bs ++ mem.drop (pos + (hdr.length + (v.length + bs.length))))) by simp] at h3
      exact h3
    generalize hpost : mem.drop (pos + (hdr.length + (v.length + bs.length))) = post at hmem
    have hpl : (mem.take pos).length = pos := by
      rw [List.length_take]; omega
    generalize mem.take pos = pre at hmem hpl
    have hhl : 0 < hdr.length := by rw [hb]; simp [setOptionHeader]
    have hread : readHeader mem pos = .ok (num - prev, v.length, pos + hdr.length) := by
      rw [hmem, hb, ← hpl]
      exact readHeader_header pre _ _ _ hwl.1 hwl.2
    have hval : slice mem (pos + hdr.length) v.length = v := by
      rw [hmem, show pos + hdr.length = (pre ++ hdr).length by simp [hpl], ← List.append_assoc]
      exact slice_mid _ _ _
    have hrest : slice mem (pos + hdr.length + v.length) bs.length = bs := by
      rw [hmem, show pos + hdr.length + v.length = (pre ++ (hdr ++ v)).length by
        simp [hpl]; omega, show pre ++ (hdr ++ (v ++ (bs ++ post))) = pre ++ (hdr ++ v) ++ (bs ++ post) by simp]
      exact slice_mid _ _ _
    have hget : ∃ b, Out.get mem pos = .ok b ∧ ¬ b &&& 0xF0 = 0xF0 := by
      refine ⟨_, ?_, not_marker (num - prev) v.length⟩
      apply get_eq_ok
      rw [hmem, ← hpl, List.getElem?_append_right (Nat.le_refl _), Nat.sub_self, hb]
      rfl
    obtain ⟨b, hgb, hnm⟩ := hget
    have hstep : ∀ fuel, optLoop cfg false dataLen (fuel + 1) mem pos prev c 0 =
        (do
          let (s, p, mem) ← parseOption cfg false mem (setOpt' c num) num (pos + hdr.length) v.length
          if s ≠ noError then .ok (s, p, mem)
          else optLoop cfg false dataLen fuel mem (pos + hdr.length + v.length) num p 0) := by
      intro fuel
      rw [optLoop, if_pos (by omega), hgb]
      simp only [Out.ok_bind]
      rw [if_neg hnm, hread]
      simp only [Out.ok_bind]
      rw [show (prev + (num - prev)) % 2 ^ 32 = num by omega]
      rw [if_neg (by omega)]
      simp only [Bool.not_false, if_true]
      rfl
    have hsp' := spOk_setOpt' cfg c pos prev num hsp
    obtain ⟨s, c1, mem1, e1, e2, hsp1, hl1, hk1⟩ := parseOption_sim cfg mem (setOpt' c num) pos prev num
      (pos + hdr.length) v.length hsp' hle (by omega) (by omega)
    rw [map_setOpt', hval] at e2
    simp only [absFold] at hfold
    rw [e2] at hfold
    simp only at hfold
    by_cases hs0 : s = noError
    · rw [if_pos hs0] at hfold
      have hsl1 : slice mem1 (pos + hdr.length + v.length) bs.length = bs := by
        rw [slice_congr mem mem1 _ _ (fun k h _ => hk1 k h)]; exact hrest
      obtain ⟨mem', c', num', e3, e4, hsp2, hl2, hk2⟩ := ih f (pos + hdr.length + v.length) mem1 c1 p' hsp1
        hsl1 (by omega) (by omega) (fun o ho => hlt o (by simp [ho])) hfold
      refine ⟨mem', c', num', ?_, e4, ?_, by omega, ?_⟩
      · rw [List.length_cons, ← Nat.add_assoc, hstep, e1]
        simp only [Out.ok_bind]
        rw [if_neg (by simp [hs0]), e3]
        congr 1
        omega
      · rw [show pos + (hdr.length + (v.length + bs.length)) = pos + hdr.length + v.length + bs.length by omega]
        exact hsp2
      · intro k hk
        rw [hk2 k (by omega), hk1 k (by omega)]
    · rw [if_neg hs0] at hfold
      exact absurd hfold (by simp)

end Verif.CoapMsg
