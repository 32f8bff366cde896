import Verif.CoapMsg.Lemmas

/-! Helper lemmas: which bytes the parser reads. -/

namespace Verif.CoapMsg

open Verif.Coap

/-- Two objects that hold the same `n` bytes first. -/
def Agree (n : Nat) (a b : List UInt8) : Prop :=
  n ≤ a.length ∧ n ≤ b.length ∧ ∀ k < n, a[k]? = b[k]?

theorem Agree.symm {n : Nat} {a b : List UInt8} (h : Agree n a b) : Agree n b a :=
  ⟨h.2.1, h.1, fun k hk => (h.2.2 k hk).symm⟩

theorem Agree.refl {n : Nat} {a : List UInt8} (h : n ≤ a.length) : Agree n a a := ⟨h, h, fun _ _ => rfl⟩

theorem Agree.get {n : Nat} {a b : List UInt8} (h : Agree n a b) (i : Nat) (hi : i < n) :
    Out.get a i = Out.get b i := by
  simp only [Out.get, h.2.2 i hi]

theorem get_lt (a : List UInt8) (i : Nat) (h : i < a.length) : ∃ v, Out.get a i = .ok v := by
  rw [Out.get, List.getElem?_eq_getElem h]; exact ⟨_, rfl⟩

theorem agree_slice {n : Nat} {a b : List UInt8} (h : Agree n a b) (o l : Nat) (hl : o + l ≤ n) :
    slice a o l = slice b o l :=
  slice_congr _ _ _ _ fun k _ hk => h.2.2 k (by omega)

theorem agree_sliceChk {n : Nat} {a b : List UInt8} (h : Agree n a b) (o l : Nat) (hl : o + l ≤ n) :
    sliceChk a o l = .ok (slice a o l) ∧ sliceChk b o l = .ok (slice a o l) := by
  have := h.1; have := h.2.1
  rw [sliceChk, if_pos (by omega), sliceChk, if_pos (by omega), agree_slice h o l hl]
  exact ⟨rfl, rfl⟩

theorem Agree.write {n : Nat} {a b : List UInt8} (h : Agree n a b) (o : Nat) (v : List UInt8)
    (hl : o + v.length ≤ n) :
    ∃ a' b', writeChk a o v = .ok a' ∧ writeChk b o v = .ok b' ∧ Agree n a' b' ∧ a'.length = a.length ∧
      b'.length = b.length := by
  have h1 := h.1; have h2 := h.2.1
  have la := length_writeAt a o v (by omega)
  have lb := length_writeAt b o v (by omega)
  refine ⟨writeAt a o v, writeAt b o v, ?_, ?_, ⟨by omega, by omega, ?_⟩, la, lb⟩
  · rw [writeChk, if_pos (by omega)]
  · rw [writeChk, if_pos (by omega)]
  · intro k hk
    rw [getElem?_writeAt _ _ _ _ (by omega), getElem?_writeAt _ _ _ _ (by omega), h.2.2 k hk]

theorem readExt_pos (m : List UInt8) (nib pos d q : Nat) (h : readExt m nib pos = .ok (d, q)) :
    pos ≤ q ∧ q ≤ pos + 2 := by
  unfold readExt at h
  split at h
  · cases e : Out.get m pos <;> simp [e] at h
    omega
  · split at h
    · cases e : Out.get m pos <;> simp [e] at h
      cases e2 : Out.get m (pos + 1) <;> simp [e2] at h
      omega
    · simp at h; omega

theorem readExt_agree {n : Nat} {a b : List UInt8} (hab : Agree n a b) (nib pos d q : Nat)
    (h : readExt a nib pos = .ok (d, q)) (hq : q ≤ n) : readExt b nib pos = .ok (d, q) := by
  unfold readExt at h ⊢
  split
  · rename_i h13
    rw [if_pos h13] at h
    cases e : Out.get a pos <;> simp [e] at h
    rw [← hab.get pos (by omega), e]
    simp [h]
  · rename_i h13
    rw [if_neg h13] at h
    split
    · rename_i h14
      rw [if_pos h14] at h
      cases e : Out.get a pos <;> simp [e] at h
      cases e2 : Out.get a (pos + 1) <;> simp [e2] at h
      rw [← hab.get pos (by omega), e, ← hab.get (pos + 1) (by omega), e2]
      simp [h]
    · rename_i h14
      rw [if_neg h14] at h
      exact h

theorem readExt_defined (m : List UInt8) (nib pos : Nat) (h : pos + 2 ≤ m.length) :
    ∃ d q, readExt m nib pos = .ok (d, q) ∧ pos ≤ q ∧ q ≤ pos + 2 := by
  unfold readExt
  split
  · obtain ⟨v, e⟩ := get_lt m pos (by omega)
    rw [e]; exact ⟨_, _, rfl, by omega, by omega⟩
  · split
    · obtain ⟨v, e⟩ := get_lt m pos (by omega)
      obtain ⟨v2, e2⟩ := get_lt m (pos + 1) (by omega)
      rw [e, Out.ok_bind, e2]; exact ⟨_, _, rfl, by omega, by omega⟩
    · exact ⟨_, _, rfl, by omega, by omega⟩

theorem readHeader_pos (m : List UInt8) (pos d l q : Nat) (h : readHeader m pos = .ok (d, l, q)) :
    pos + 1 ≤ q := by
  unfold readHeader at h
  cases e : Out.get m pos with
  | ub => simp [e] at h
  | ok v =>
    simp only [e, Out.ok_bind] at h
    cases e1 : readExt m (v.toNat >>> 4) (pos + 1) with
    | ub => simp [e1] at h
    | ok r =>
      obtain ⟨d1, p1⟩ := r
      simp only [e1, Out.ok_bind] at h
      cases e2 : readExt m (v.toNat &&& 0x0F) p1 with
      | ub => simp [e2] at h
      | ok r2 =>
        obtain ⟨d2, p2⟩ := r2
        simp only [e2, Out.ok_bind, Out.ok.injEq, Prod.mk.injEq] at h
        have := readExt_pos _ _ _ _ _ e1
        have := readExt_pos _ _ _ _ _ e2
        omega

theorem readHeader_agree {n : Nat} {a b : List UInt8} (hab : Agree n a b) (pos d l q : Nat)
    (h : readHeader a pos = .ok (d, l, q)) (hq : q ≤ n) : readHeader b pos = .ok (d, l, q) := by
  have hpq := readHeader_pos _ _ _ _ _ h
  unfold readHeader at h ⊢
  cases e : Out.get a pos with
  | ub => simp [e] at h
  | ok v =>
    rw [← hab.get pos (by omega), e]
    simp only [e, Out.ok_bind] at h ⊢
    cases e1 : readExt a (v.toNat >>> 4) (pos + 1) with
    | ub => simp [e1] at h
    | ok r =>
      obtain ⟨d1, p1⟩ := r
      simp only [e1, Out.ok_bind] at h
      cases e2 : readExt a (v.toNat &&& 0x0F) p1 with
      | ub => simp [e2] at h
      | ok r2 =>
        obtain ⟨d2, p2⟩ := r2
        simp only [e2, Out.ok_bind, Out.ok.injEq, Prod.mk.injEq] at h
        have := readExt_pos _ _ _ _ _ e2
        rw [readExt_agree hab _ _ _ _ e1 (by omega), Out.ok_bind]
        simp only
        rw [readExt_agree hab _ _ _ _ e2 (by omega)]
        simp [h]

theorem readHeader_defined (m : List UInt8) (pos : Nat) (h : pos + 5 ≤ m.length) :
    ∃ d l q, readHeader m pos = .ok (d, l, q) := by
  obtain ⟨v, e⟩ := get_lt m pos (by omega)
  obtain ⟨d1, p1, e1, h1, h2⟩ := readExt_defined m (v.toNat >>> 4) (pos + 1) (by omega)
  obtain ⟨d2, p2, e2, _, _⟩ := readExt_defined m (v.toNat &&& 0x0F) p1 (by omega)
  unfold readHeader
  rw [e, Out.ok_bind, e1, Out.ok_bind]
  simp only
  rw [e2]
  exact ⟨_, _, _, rfl⟩

theorem mergeMulti_agree {n : Nat} {a b : List UInt8} (hab : Agree n a b) (dst : Span) (off len : Nat) (sep : UInt8)
    (h1 : dst.off + dst.len + 1 ≤ off) (h2 : off + len ≤ n) :
    ∃ a' b' s, mergeMulti a dst off len sep = .ok (a', s) ∧ mergeMulti b dst off len sep = .ok (b', s) ∧
      Agree n a' b' ∧ a'.length = a.length ∧ b'.length = b.length ∧ s.off + s.len ≤ off + len := by
  unfold mergeMulti
  split
  · obtain ⟨a1, b1, e1, e2, hab1, l1, l2⟩ := hab.write (dst.off + dst.len) [sep] (by simp only [List.length_singleton]; omega)
    obtain ⟨e3, e4⟩ := agree_sliceChk hab1 off len h2
    have hl : (slice a1 off len).length = len := length_slice _ _ _ (by have := hab1.1; omega)
    obtain ⟨a2, b2, e5, e6, hab2, l3, l4⟩ := hab1.write (dst.off + dst.len + 1) (slice a1 off len) (by omega)
    simp only [e1, e2, e3, e4, e5, e6, Out.ok_bind]
    exact ⟨a2, b2, _, rfl, rfl, hab2, by omega, by omega, by simp only; omega⟩
  · exact ⟨a, b, _, rfl, rfl, hab, rfl, rfl, Nat.le_refl _⟩

theorem parseOption_agree {n : Nat} {a b : List UInt8} (hab : Agree n a b) (cfg : Cfg) (val : Bool) (p : Packet Span)
    (num off len : Nat) (h1 : p.uriPath.off + p.uriPath.len + 1 ≤ off)
    (h1' : p.uriQuery.off + p.uriQuery.len + 1 ≤ off) (h2 : off + len ≤ n) :
    ∃ s p' a' b', parseOption cfg val a p num off len = .ok (s, p', a') ∧
      parseOption cfg val b p num off len = .ok (s, p', b') ∧
      Agree n a' b' ∧ a'.length = a.length ∧ b'.length = b.length ∧
      p'.uriPath.off + p'.uriPath.len ≤ off + len ∧ p'.uriQuery.off + p'.uriQuery.len ≤ off + len := by
  obtain ⟨e1, e2⟩ := agree_sliceChk hab off len h2
  unfold parseOption
  simp only [e1, e2, Out.ok_bind]
  split
  · obtain ⟨_, q1, q2, _⟩ := parseSignal_strs p num (slice a off len) ⟨off, len⟩
    refine ⟨_, _, a, b, rfl, rfl, hab, rfl, rfl, ?_, ?_⟩
    · rw [q1]; omega
    · rw [q2]; omega
  split
  · split
    · exact ⟨_, _, a, b, rfl, rfl, hab, rfl, rfl, by omega, by omega⟩
    · obtain ⟨a', b', s, m1, m2, m3, m4, m5, m6⟩ := mergeMulti_agree hab p.uriPath off len 47 h1 h2
      rw [m1, m2]
      exact ⟨_, _, a', b', rfl, rfl, m3, m4, m5, m6, by simp only; omega⟩
  split
  · split
    · exact ⟨_, _, a, b, rfl, rfl, hab, rfl, rfl, by omega, by omega⟩
    · obtain ⟨a', b', s, m1, m2, m3, m4, m5, m6⟩ := mergeMulti_agree hab p.uriQuery off len 38 h1' h2
      rw [m1, m2]
      exact ⟨_, _, a', b', rfl, rfl, m3, m4, m5, by simp only; omega, m6⟩
  split
  · split
    · exact ⟨_, _, a, b, rfl, rfl, hab, rfl, rfl, by omega, by omega⟩
    · exact ⟨_, _, a, b, rfl, rfl, hab, rfl, rfl, by simp only; omega, by simp only; omega⟩
  split
  · exact ⟨_, _, a, b, rfl, rfl, hab, rfl, rfl, by simp only; omega, by simp only; omega⟩
  · obtain ⟨_, q1, q2, _⟩ := parseScalar_strs cfg p num (slice a off len)
    refine ⟨_, _, a, b, rfl, rfl, hab, rfl, rfl, ?_, ?_⟩
    · rw [q1]; omega
    · rw [q2]; omega

theorem ite_setOpt (p : Packet Span) (n : Nat) :
    (if n ≤ 60 then setOpt p n else p).uriPath = p.uriPath ∧
    (if n ≤ 60 then setOpt p n else p).uriQuery = p.uriQuery := by
  split <;> exact ⟨rfl, rfl⟩

/-- The loop is defined when four bytes follow the message in the object. -/
theorem optLoop_defined (cfg : Cfg) (val : Bool) (dataLen : Nat) : ∀ (fuel : Nat) (m : List UInt8) (pos num : Nat)
    (p : Packet Span) (le : Nat), dataLen < fuel + pos → 0 < fuel → dataLen + 4 ≤ m.length →
    p.uriPath.off + p.uriPath.len ≤ pos → p.uriQuery.off + p.uriQuery.len ≤ pos →
    ∃ s p' m', optLoop cfg val dataLen fuel m pos num p le = .ok (s, p', m') ∧ m'.length = m.length := by
  intro fuel
  induction fuel with
  | zero => intros; omega
  | succ f ih =>
    intro m pos num p le hf _ hm h1 h2
    rw [optLoop]
    split
    · rename_i hlt
      obtain ⟨b, e⟩ := get_lt m pos (by omega)
      rw [e, Out.ok_bind]
      split
      · exact ⟨_, _, _, rfl, rfl⟩
      · obtain ⟨d, l, q, eh⟩ := readHeader_defined m pos (by omega)
        have hq := readHeader_pos _ _ _ _ _ eh
        rw [eh]
        simp only [Out.ok_bind]
        split
        · exact ⟨_, _, _, rfl, rfl⟩
        · rename_i hle
          generalize hn : (num + d) % 2 ^ 32 = num'
          obtain ⟨g1, g2⟩ := ite_setOpt p num'
          generalize (if num' ≤ 60 then setOpt p num' else p) = p1 at *
          obtain ⟨s, p', a', b', o1, o2, o3, o4, o5, o6, o7⟩ := parseOption_agree (n := dataLen)
            (Agree.refl (a := m) (by omega)) cfg val p1 num' q l (by rw [g1]; omega) (by rw [g2]; omega) (by omega)
          rw [o1]
          simp only [Out.ok_bind]
          have recur := fun le' => ih a' (q + l) num' p' le' (by omega) (by omega) (by omega) o6 o7
          split
          · split
            · exact ⟨_, _, _, rfl, by omega⟩
            · split
              · exact ⟨_, _, _, rfl, by omega⟩
              · obtain ⟨s2, p2, m2, r1, r2⟩ := recur (if le < s then s else le)
                exact ⟨s2, p2, m2, r1, by omega⟩
          · obtain ⟨s2, p2, m2, r1, r2⟩ := recur le
            exact ⟨s2, p2, m2, r1, by omega⟩
    · exact ⟨_, _, _, rfl, rfl⟩

/-- A result other than `badRequest` depends on the message only. -/
theorem optLoop_agree (cfg : Cfg) (val : Bool) (dataLen : Nat) : ∀ (fuel : Nat) (a b : List UInt8) (pos num : Nat)
    (p : Packet Span) (le s : Nat) (p' : Packet Span) (a' : List UInt8), Agree dataLen a b →
    p.uriPath.off + p.uriPath.len ≤ pos → p.uriQuery.off + p.uriQuery.len ≤ pos →
    optLoop cfg val dataLen fuel a pos num p le = .ok (s, p', a') → s ≠ badRequest →
    ∃ b', optLoop cfg val dataLen fuel b pos num p le = .ok (s, p', b') ∧ Agree dataLen a' b' := by
  intro fuel
  induction fuel with
  | zero => intro a b pos num p le s p' a' _ _ _ h; simp [optLoop] at h
  | succ f ih =>
    intro a b pos num p le s p' a' hab h1 h2 h hs
    rw [optLoop] at h ⊢
    split at h
    · rename_i hlt
      rw [if_pos hlt]
      obtain ⟨v, e⟩ := get_lt a pos (by have := hab.1; omega)
      rw [e] at h
      rw [← hab.get pos hlt, e]
      simp only [Out.ok_bind] at h ⊢
      split at h
      · rename_i hmark
        rw [if_pos hmark]
        simp only [Out.ok.injEq, Prod.mk.injEq] at h ⊢
        obtain ⟨rfl, rfl, rfl⟩ := h
        exact ⟨b, ⟨rfl, rfl, rfl⟩, hab⟩
      · rename_i hmark
        rw [if_neg hmark]
        cases eh : readHeader a pos with
        | ub => simp [eh] at h
        | ok r =>
          obtain ⟨d, l, q⟩ := r
          rw [eh] at h
          simp only [Out.ok_bind] at h
          split at h
          · simp only [Out.ok.injEq, Prod.mk.injEq] at h
            exact absurd h.1.symm hs
          · rename_i hle
            rw [readHeader_agree hab _ _ _ _ eh (by omega)]
            have hq := readHeader_pos _ _ _ _ _ eh
            simp only [Out.ok_bind]
            rw [if_neg hle]
            generalize hn : (num + d) % 2 ^ 32 = num' at *
            obtain ⟨g1, g2⟩ := ite_setOpt p num'
            generalize (if num' ≤ 60 then setOpt p num' else p) = p1 at *
            obtain ⟨s1, p2, a2, b2, o1, o2, o3, o4, o5, o6, o7⟩ := parseOption_agree hab cfg val p1 num' q l
              (by rw [g1]; omega) (by rw [g2]; omega) (by omega)
            rw [o1] at h
            rw [o2]
            simp only [Out.ok_bind] at h ⊢
            split at h
            · rename_i hs1
              rw [if_pos hs1]
              split at h
              · rename_i hv
                rw [if_pos hv]
                simp only [Out.ok.injEq, Prod.mk.injEq] at h ⊢
                obtain ⟨rfl, rfl, rfl⟩ := h
                exact ⟨b2, ⟨rfl, rfl, rfl⟩, o3⟩
              · rename_i hv
                rw [if_neg hv]
                split at h
                · rename_i hbr
                  simp only [Out.ok.injEq, Prod.mk.injEq] at h
                  exact absurd (h.1.symm.trans hbr) hs
                · rename_i hbr
                  rw [if_neg hbr]
                  exact ih a2 b2 _ _ _ _ s p' a' o3 o6 o7 h hs
            · rename_i hs1
              rw [if_neg hs1]
              exact ih a2 b2 _ _ _ _ s p' a' o3 o6 o7 h hs
    · rename_i hlt
      rw [if_neg hlt]
      simp only [Out.ok.injEq, Prod.mk.injEq] at h ⊢
      obtain ⟨rfl, rfl, rfl⟩ := h
      exact ⟨b, ⟨rfl, rfl, rfl⟩, hab⟩

/-! ### Validation pass and parsing pass -/

theorem intUpd_ne_bad (err : Nat) (v : List UInt8) (k : Nat → Nat × Upd) (he : err ≠ badRequest)
    (hk : ∀ n, (k n).1 ≠ badRequest) : (intUpd err v k).1 ≠ badRequest := by
  unfold intUpd
  split
  · exact he
  · exact hk _

theorem ite_fst_ne {α : Type} {c : Prop} [Decidable c] (a b : Nat × α) (x : Nat) (ha : a.1 ≠ x) (hb : b.1 ≠ x) :
    (if c then a else b).1 ≠ x := by split <;> assumption

theorem decodeScalar_ne_bad (cfg : Cfg) (num : Nat) (v : List UInt8) : (decodeScalar cfg num v).1 ≠ badRequest := by
  have e0 : noError ≠ badRequest := by decide
  have e1 : badOption ≠ badRequest := by decide
  have e2 : notAcceptable ≠ badRequest := by decide
  have e3 : unsupportedMedia ≠ badRequest := by decide
  unfold decodeScalar
  repeat' (first
    | exact e0
    | exact e1
    | exact e2
    | exact e3
    | apply ite_fst_ne
    | (apply intUpd_ne_bad)
    | intro n)

theorem parseSignal_ne_bad {σ : Type} (p : Packet σ) (hs : isSignal p.code = true) (num : Nat) (v : List UInt8) (r : σ) :
    (parseSignal p num v r).1 ≠ badRequest := by
  have e0 : noError ≠ badRequest := by decide
  have e1 : badOption ≠ badRequest := by decide
  unfold parseSignal
  repeat' split
  all_goals first
    | exact e0
    | exact e1
    | (simp [isSignal] at hs; omega)

/-- Status of an option, from the code of the message and the value only. -/
def optStatus (cfg : Cfg) (code num : Nat) (v : List UInt8) : Nat :=
  if cfg.tcp && isSignal code then (parseSignal { zeroPacket () with code := code } num v ()).1
  else if num = 11 ∨ num = 15 ∨ num = 35 ∨ num = 3 then noError
  else (decodeScalar cfg num v).1

theorem optStatus_ne_bad (cfg : Cfg) (code num : Nat) (v : List UInt8) : optStatus cfg code num v ≠ badRequest := by
  unfold optStatus
  split
  · rename_i h
    rw [Bool.and_eq_true] at h
    exact parseSignal_ne_bad _ h.2 _ _ _
  · split
    · decide
    · exact decodeScalar_ne_bad _ _ _

theorem parseSignal_status {σ τ : Type} (p : Packet σ) (q : Packet τ) (h : p.code = q.code) (num : Nat) (v : List UInt8)
    (r : σ) (r' : τ) : (parseSignal p num v r).1 = (parseSignal q num v r').1 := by
  unfold parseSignal
  rw [h]
  repeat' split
  all_goals rfl

theorem parseOption_status (cfg : Cfg) (val : Bool) (m : List UInt8) (p : Packet Span) (num off len s : Nat)
    (p' : Packet Span) (m' : List UInt8) (h : parseOption cfg val m p num off len = .ok (s, p', m')) :
    s = optStatus cfg p.code num (slice m off len) ∧ p'.code = p.code := by
  unfold parseOption at h
  cases e : sliceChk m off len with
  | ub => simp [e] at h
  | ok v =>
    have hv : v = slice m off len := by
      rw [sliceChk] at e
      split at e
      · simpa using e.symm
      · simp at e
    subst hv
    simp only [e, Out.ok_bind] at h
    unfold optStatus
    split at h
    · rename_i hc
      rw [if_pos hc]
      simp only [Out.ok.injEq, Prod.mk.injEq] at h
      obtain ⟨rfl, rfl, _⟩ := h
      refine ⟨parseSignal_status p { zeroPacket () with code := p.code } rfl _ _ _ _, ?_⟩
      obtain ⟨_, _, _, _, _, h, _⟩ := parseSignal_strs p num (slice m off len) ⟨off, len⟩
      exact h
    · rename_i hc
      rw [if_neg hc]
      split at h
      · rename_i h11
        rw [if_pos (Or.inl h11)]
        split at h
        · simp only [Out.ok.injEq, Prod.mk.injEq] at h
          obtain ⟨rfl, rfl, _⟩ := h; exact ⟨rfl, rfl⟩
        · cases e2 : mergeMulti m p.uriPath off len 47 with
          | ub => simp [e2] at h
          | ok r =>
            simp only [e2, Out.ok_bind, Out.ok.injEq, Prod.mk.injEq] at h
            obtain ⟨rfl, rfl, _⟩ := h; exact ⟨rfl, rfl⟩
      split at h
      · rename_i _ h15
        rw [if_pos (Or.inr (Or.inl h15))]
        split at h
        · simp only [Out.ok.injEq, Prod.mk.injEq] at h
          obtain ⟨rfl, rfl, _⟩ := h; exact ⟨rfl, rfl⟩
        · cases e2 : mergeMulti m p.uriQuery off len 38 with
          | ub => simp [e2] at h
          | ok r =>
            simp only [e2, Out.ok_bind, Out.ok.injEq, Prod.mk.injEq] at h
            obtain ⟨rfl, rfl, _⟩ := h; exact ⟨rfl, rfl⟩
      split at h
      · rename_i _ _ h35
        rw [if_pos (Or.inr (Or.inr (Or.inl h35)))]
        split at h
        all_goals
          simp only [Out.ok.injEq, Prod.mk.injEq] at h
          obtain ⟨rfl, rfl, _⟩ := h; exact ⟨rfl, rfl⟩
      split at h
      · rename_i _ _ _ h3
        rw [if_pos (Or.inr (Or.inr (Or.inr h3)))]
        simp only [Out.ok.injEq, Prod.mk.injEq] at h
        obtain ⟨rfl, rfl, _⟩ := h; exact ⟨rfl, rfl⟩
      · rename_i h11 h15 h35 h3
        rw [if_neg (by omega)]
        simp only [Out.ok.injEq, Prod.mk.injEq] at h
        obtain ⟨rfl, rfl, _⟩ := h
        obtain ⟨_, _, _, _, _, h, _⟩ := parseScalar_strs cfg p num (slice m off len)
        exact ⟨rfl, h⟩

theorem parseOption_validate_mem (cfg : Cfg) (m : List UInt8) (p : Packet Span) (num off len s : Nat)
    (p' : Packet Span) (m' : List UInt8) (h : parseOption cfg true m p num off len = .ok (s, p', m')) : m' = m := by
  unfold parseOption at h
  cases e : sliceChk m off len with
  | ub => simp [e] at h
  | ok v =>
    simp only [e, Out.ok_bind, if_true] at h
    repeat' split at h
    all_goals
      simp only [Out.ok.injEq, Prod.mk.injEq] at h
      exact h.2.2.symm

theorem optLoop_validate_mem (cfg : Cfg) (dataLen : Nat) : ∀ (fuel : Nat) (m : List UInt8) (pos num : Nat)
    (p : Packet Span) (le s : Nat) (p' : Packet Span) (m' : List UInt8),
    optLoop cfg true dataLen fuel m pos num p le = .ok (s, p', m') → m' = m ∧ (s = badRequest ∨ le ≤ s) := by
  intro fuel
  induction fuel with
  | zero => intro m pos num p le s p' m' h; simp [optLoop] at h
  | succ f ih =>
    intro m pos num p le s p' m' h
    rw [optLoop] at h
    split at h
    · cases e : Out.get m pos with
      | ub => simp [e] at h
      | ok v =>
        simp only [e, Out.ok_bind] at h
        split at h
        · simp only [Out.ok.injEq, Prod.mk.injEq] at h
          exact ⟨h.2.2.symm, Or.inr (by omega)⟩
        · cases eh : readHeader m pos with
          | ub => simp [eh] at h
          | ok r =>
            obtain ⟨d, l, q⟩ := r
            simp only [eh, Out.ok_bind] at h
            split at h
            · simp only [Out.ok.injEq, Prod.mk.injEq] at h
              exact ⟨h.2.2.symm, Or.inl h.1.symm⟩
            · generalize (if (num + d) % 2 ^ 32 ≤ 60 then setOpt p ((num + d) % 2 ^ 32) else p) = p1 at h
              cases eo : parseOption cfg true m p1 ((num + d) % 2 ^ 32) q l with
              | ub => simp [eo] at h
              | ok r =>
                obtain ⟨s1, p2, m2⟩ := r
                have hm2 := parseOption_validate_mem _ _ _ _ _ _ _ _ _ eo
                subst hm2
                simp only [eo, Out.ok_bind] at h
                split at h
                · rw [if_neg (by decide)] at h
                  split at h
                  · rename_i hb
                    simp only [Out.ok.injEq, Prod.mk.injEq] at h
                    exact ⟨h.2.2.symm, Or.inl (by omega)⟩
                  · obtain ⟨r1, r2⟩ := ih _ _ _ _ _ _ _ _ h
                    refine ⟨r1, r2.imp id ?_⟩
                    split <;> omega
                · obtain ⟨r1, r2⟩ := ih _ _ _ _ _ _ _ _ h
                  exact ⟨r1, r2⟩
    · simp only [Out.ok.injEq, Prod.mk.injEq] at h
      exact ⟨h.2.2.symm, Or.inr (by omega)⟩

/-- Two objects that hold the same bytes from `pos` on. -/
def From (pos : Nat) (a b : List UInt8) : Prop := a.length = b.length ∧ ∀ k, pos ≤ k → a[k]? = b[k]?

theorem From.get {pos : Nat} {a b : List UInt8} (h : From pos a b) (k : Nat) (hk : pos ≤ k) :
    Out.get a k = Out.get b k := by simp only [Out.get, h.2 k hk]

theorem From.readExt {pos : Nat} {a b : List UInt8} (h : From pos a b) (nib k : Nat) (hk : pos ≤ k) :
    readExt a nib k = Coap.readExt b nib k := by
  unfold Coap.readExt
  rw [h.get k hk, h.get (k + 1) (by omega)]

theorem From.readHeader {pos : Nat} {a b : List UInt8} (h : From pos a b) : readHeader a pos = Coap.readHeader b pos := by
  unfold Coap.readHeader
  rw [h.get pos (Nat.le_refl _)]
  cases e : Out.get b pos with
  | ub => rfl
  | ok v =>
    simp only [Out.ok_bind]
    rw [h.readExt _ _ (by omega)]
    cases e1 : Coap.readExt b (v.toNat >>> 4) (pos + 1) with
    | ub => rfl
    | ok r =>
      simp only [Out.ok_bind]
      rw [h.readExt _ _ (by have := readExt_pos _ _ _ _ _ e1; omega)]

theorem mergeMulti_from (m : List UInt8) (dst : Span) (off len : Nat) (sep : UInt8)
    (h1 : dst.off + dst.len + 1 ≤ off) (h2 : off + len ≤ m.length) (m' : List UInt8) (s : Span)
    (h : mergeMulti m dst off len sep = .ok (m', s)) : From (off + len) m' m := by
  unfold mergeMulti at h
  split at h
  · rw [writeChk, if_pos (by simp only [List.length_singleton]; omega)] at h
    simp only [Out.ok_bind] at h
    have l1 := length_writeAt m (dst.off + dst.len) [sep] (by simp only [List.length_singleton]; omega)
    rw [sliceChk, if_pos (by omega)] at h
    simp only [Out.ok_bind] at h
    have l2 := length_slice (writeAt m (dst.off + dst.len) [sep]) off len (by omega)
    rw [writeChk, if_pos (by omega)] at h
    simp only [Out.ok_bind, Out.ok.injEq, Prod.mk.injEq] at h
    rw [← h.1]
    refine ⟨by rw [length_writeAt _ _ _ (by omega), l1], fun k hk => ?_⟩
    rw [getElem?_writeAt _ _ _ _ (by omega), if_neg (by omega), getElem?_writeAt _ _ _ _ (by simp only [List.length_singleton]; omega),
      if_neg (by simp only [List.length_singleton]; omega)]
  · simp only [Out.ok.injEq, Prod.mk.injEq] at h
    rw [← h.1]
    exact ⟨rfl, fun _ _ => rfl⟩

theorem parseOption_from (cfg : Cfg) (val : Bool) (m : List UInt8) (p : Packet Span) (num off len s : Nat)
    (p' : Packet Span) (m' : List UInt8)
    (h1 : p.uriPath.off + p.uriPath.len + 1 ≤ off) (h1' : p.uriQuery.off + p.uriQuery.len + 1 ≤ off)
    (h2 : off + len ≤ m.length)
    (h : parseOption cfg val m p num off len = .ok (s, p', m')) : From (off + len) m' m := by
  unfold parseOption at h
  rw [sliceChk, if_pos h2] at h
  simp only [Out.ok_bind] at h
  have hr : ∀ m', m = m' → From (off + len) m' m := fun m' e => e ▸ ⟨rfl, fun _ _ => rfl⟩
  split at h
  · simp only [Out.ok.injEq, Prod.mk.injEq] at h; exact hr _ h.2.2
  split at h
  · split at h
    · simp only [Out.ok.injEq, Prod.mk.injEq] at h; exact hr _ h.2.2
    · cases e2 : mergeMulti m p.uriPath off len 47 with
      | ub => simp [e2] at h
      | ok r =>
        obtain ⟨m2, s2⟩ := r
        simp only [e2, Out.ok_bind, Out.ok.injEq, Prod.mk.injEq] at h
        rw [← h.2.2]
        exact mergeMulti_from m p.uriPath off len 47 h1 h2 m2 s2 e2
  split at h
  · split at h
    · simp only [Out.ok.injEq, Prod.mk.injEq] at h; exact hr _ h.2.2
    · cases e2 : mergeMulti m p.uriQuery off len 38 with
      | ub => simp [e2] at h
      | ok r =>
        obtain ⟨m2, s2⟩ := r
        simp only [e2, Out.ok_bind, Out.ok.injEq, Prod.mk.injEq] at h
        rw [← h.2.2]
        exact mergeMulti_from m p.uriQuery off len 38 h1' h2 m2 s2 e2
  split at h
  · split at h
    all_goals simp only [Out.ok.injEq, Prod.mk.injEq] at h; exact hr _ h.2.2
  split at h
  all_goals simp only [Out.ok.injEq, Prod.mk.injEq] at h; exact hr _ h.2.2

theorem ite_setOpt_code (p : Packet Span) (n : Nat) : (if n ≤ 60 then setOpt p n else p).code = p.code := by
  split <;> rfl

/-- Parsing on a message that earlier merges have changed, against validating the
original message. -/
theorem optLoop_validate (cfg : Cfg) (dataLen : Nat) : ∀ (fuel : Nat) (a b : List UInt8) (pos num : Nat)
    (p pv : Packet Span) (s sv : Nat) (p' pv' : Packet Span) (a' b' : List UInt8), From pos a b → dataLen ≤ a.length →
    p.code = pv.code →
    p.uriPath.off + p.uriPath.len ≤ pos → p.uriQuery.off + p.uriQuery.len ≤ pos →
    pv.uriPath.off + pv.uriPath.len ≤ pos → pv.uriQuery.off + pv.uriQuery.len ≤ pos →
    optLoop cfg false dataLen fuel a pos num p 0 = .ok (s, p', a') →
    optLoop cfg true dataLen fuel b pos num pv 0 = .ok (sv, pv', b') →
    (s = noError ↔ sv = noError) ∧ (s = badRequest → sv = badRequest) := by
  intro fuel
  induction fuel with
  | zero => intro a b pos num p pv s sv p' pv' a' b' _ _ _ _ _ _ _ h; simp [optLoop] at h
  | succ f ih =>
    intro a b pos num p pv s sv p' pv' a' b' hab hlen hcode h1 h2 h3 h4 h hv
    rw [optLoop] at h hv
    by_cases hlt : pos < dataLen
    · rw [if_pos hlt] at h hv
      rw [hab.get pos (Nat.le_refl _)] at h
      cases e : Out.get b pos with
      | ub => simp [e] at h
      | ok v =>
        simp only [e, Out.ok_bind] at h hv
        by_cases hmark : v &&& 0xF0 = 0xF0
        · rw [if_pos hmark] at h hv
          simp only [Out.ok.injEq, Prod.mk.injEq] at h hv
          rw [← h.1, ← hv.1]
          exact ⟨Iff.rfl, fun h => h⟩
        · rw [if_neg hmark] at h hv
          rw [hab.readHeader] at h
          cases eh : readHeader b pos with
          | ub => simp [eh] at h
          | ok r =>
            obtain ⟨d, l, q⟩ := r
            have hq := readHeader_pos _ _ _ _ _ eh
            simp only [eh, Out.ok_bind] at h hv
            by_cases hle : q + l > dataLen
            · rw [if_pos hle] at h hv
              simp only [Out.ok.injEq, Prod.mk.injEq] at h hv
              rw [← h.1, ← hv.1]
              exact ⟨Iff.rfl, fun h => h⟩
            · rw [if_neg hle] at h hv
              generalize (num + d) % 2 ^ 32 = num' at *
              obtain ⟨g1, g2⟩ := ite_setOpt p num'
              obtain ⟨g3, g4⟩ := ite_setOpt pv num'
              have c1 := ite_setOpt_code p num'
              have c2 := ite_setOpt_code pv num'
              generalize (if num' ≤ 60 then setOpt p num' else p) = p1 at *
              generalize (if num' ≤ 60 then setOpt pv num' else pv) = pv1 at *
              have hlb : dataLen ≤ b.length := by have := hab.1; omega
              obtain ⟨s1, p2, a2, _, o1, _, _, o4, _, o6, o7⟩ := parseOption_agree (n := dataLen)
                (Agree.refl (a := a) hlen) cfg false p1 num' q l (by rw [g1]; omega) (by rw [g2]; omega) (by omega)
              obtain ⟨s2, pv2, b2, _, w1, _, _, w4, _, w6, w7⟩ := parseOption_agree (n := dataLen)
                (Agree.refl (a := b) hlb) cfg true pv1 num' q l (by rw [g3]; omega) (by rw [g4]; omega) (by omega)
              obtain ⟨t1, t2⟩ := parseOption_status _ _ _ _ _ _ _ _ _ _ o1
              obtain ⟨t3, t4⟩ := parseOption_status _ _ _ _ _ _ _ _ _ _ w1
              have hb2 := parseOption_validate_mem _ _ _ _ _ _ _ _ _ w1
              have ha2 := parseOption_from _ _ _ _ _ _ _ _ _ _ (by rw [g1]; omega) (by rw [g2]; omega) (by omega) o1
              have hsl : slice a q l = slice b q l := slice_congr _ _ _ _ fun k hk _ => hab.2 k (by omega)
              have hcc : p1.code = pv1.code := by rw [c1, c2, hcode]
              have hst : s1 = s2 := by rw [t1, t3, hsl, hcc]
              have hnb : s1 ≠ badRequest := by rw [t1]; exact optStatus_ne_bad _ _ _ _
              subst hst
              subst hb2
              rw [o1] at h
              rw [w1] at hv
              simp only [Out.ok_bind] at h hv
              have hfrom : From (q + l) a2 b2 := ⟨by rw [o4]; exact hab.1, fun k hk => by
                rw [ha2.2 k hk, hab.2 k (by omega)]⟩
              by_cases hs1 : s1 = noError
              · rw [if_neg (by simpa using hs1)] at h hv
                exact ih a2 b2 _ _ _ _ s sv p' pv' a' b' hfrom (by omega) (by rw [t2, t4, hcc]) o6 o7 w6 w7 h hv
              · rw [if_pos hs1] at h hv
                rw [if_pos (by decide)] at h
                rw [if_neg (by decide), if_neg hnb] at hv
                simp only [Out.ok.injEq, Prod.mk.injEq] at h
                obtain ⟨_, hge⟩ := optLoop_validate_mem _ _ _ _ _ _ _ _ _ _ _ hv
                rw [← h.1]
                have hpos : 0 < s1 := Nat.pos_of_ne_zero hs1
                rw [if_pos hpos] at hge
                refine ⟨⟨fun e => absurd e hs1, fun e => ?_⟩, fun e => absurd e hnb⟩
                rcases hge with hge | hge
                · rw [hge] at e; exact absurd e (by decide)
                · rw [e] at hge; simp [noError] at hge; omega
    · rw [if_neg hlt] at h hv
      simp only [Out.ok.injEq, Prod.mk.injEq] at h hv
      rw [← h.1, ← hv.1]
      exact ⟨Iff.rfl, fun h => h⟩

end Verif.CoapMsg
