import Verif.Process.Spec
/-! Helper lemmas for the event queue. -/
namespace Verif.Process

/-- The ring holds the sequence `l`. -/
def Rep (q : Q) (l : List Ev) : Prop :=
  q.n = l.length ∧ l.length ≤ q.buf.length ∧ q.f < q.buf.length ∧
  ∀ k < l.length, q.buf[(q.f + k) % q.buf.length]? = l[k]?

theorem wrap_lt {f k c : Nat} (h : f + k < c) : (f + k) % c = f + k := Nat.mod_eq_of_lt h
theorem wrap_ge {f k c : Nat} (hf : f < c) (hk : k ≤ c) (h : c ≤ f + k) :
    (f + k) % c = f + k - c := by
  rw [Nat.mod_eq_sub_mod h, Nat.mod_eq_of_lt (by omega)]

theorem getElem?_write1 (l : List Ev) (off : Nat) (e : Ev) (i : Nat) (h : off + 1 ≤ l.length) :
    (writeAt l off [e])[i]? = if i = off then some e else l[i]? := by
  rw [getElem?_writeAt _ _ _ _ (by simpa using h)]
  simp only [List.length_singleton]
  by_cases hi : i = off
  · simp [hi]
  · rw [if_neg (by omega), if_neg hi]

theorem slice_one (l : List Ev) (i : Nat) (h : i < l.length) : slice l i 1 = [l[i]] := by
  apply List.ext_getElem?
  intro j
  rw [getElem?_slice]
  cases j with
  | zero => simp [h]
  | succ j => simp

theorem growLoop_spec (N f : Nat) (hf : f < N) : ∀ (k i j : Nat) (b : List Ev),
    i + k = N + f → f ≤ i → (i < N → j = i - f) → b.length = 2 * N →
    ∃ b', growLoop N (N + f) k i j b = .ok b' ∧ b'.length = 2 * N ∧
      (∀ x < i, b'[x]? = b[x]?) ∧ (∀ x, i ≤ x → x < N → b'[N + x]? = b[x]?) ∧
      (∀ x, N + f ≤ x → x < N + i → x < 2 * N → b'[x]? = b[x]?)
  | 0, i, j, b, h1, h2, h3, h4 =>
      ⟨b, rfl, h4, fun _ _ => rfl, fun x hx hx' => by omega, fun _ _ _ _ => rfl⟩
  | k + 1, i, j, b, h1, h2, h3, h4 => by
      by_cases hi : i < N
      · have hj : j = i - f := h3 hi
        have hib : i < b.length := by omega
        have hdst : N + f + j = N + i := by omega
        simp only [growLoop, hi, ↓reduceIte, sliceChk, show i + 1 ≤ b.length by omega,
          slice_one b i hib, Out.ok_bind, writeChk, List.length_singleton, hdst,
          show N + i + 1 ≤ b.length by omega]
        have hl1 : (writeAt b (N + i) [b[i]]).length = 2 * N := by
          rw [length_writeAt _ _ _ (by simp; omega), h4]
        have hl2 : (writeAt (writeAt b (N + i) [b[i]]) i [zeroEv]).length = 2 * N := by
          rw [length_writeAt _ _ _ (by simp; omega), hl1]
        simp only [hl1, show i + 1 ≤ 2 * N by omega, ↓reduceIte, Out.ok_bind]
        have hg : ∀ x, (writeAt (writeAt b (N + i) [b[i]]) i [zeroEv])[x]? =
            if x = i then some zeroEv else if x = N + i then b[i]? else b[x]? := by
          intro x
          rw [getElem?_write1 _ _ _ _ (by omega), getElem?_write1 _ _ _ _ (by omega)]
          rw [List.getElem?_eq_getElem hib]
        obtain ⟨b', e1, e2, e3, e4, e5⟩ := growLoop_spec N f hf k (i + 1) (j + 1) _
          (by omega) (by omega) (by omega) hl2
        refine ⟨b', e1, e2, ?_, ?_, ?_⟩
        · intro x hx
          rw [e3 x (by omega), hg, if_neg (by omega), if_neg (by omega)]
        · intro x hx hx'
          by_cases hxi : x = i
          · subst hxi
            rw [e5 (N + x) (by omega) (by omega) (by omega), hg, if_neg (by omega), if_pos rfl]
          · rw [e4 x (by omega) hx', hg, if_neg (by omega), if_neg (by omega)]
        · intro x hx hx' hx''
          rw [e5 x hx (by omega) hx'', hg, if_neg (by omega), if_neg (by omega)]
      · simp only [growLoop, hi, ↓reduceIte, writeChk, List.length_singleton,
          show i + 1 ≤ b.length by omega, Out.ok_bind]
        have hl2 : (writeAt b i [zeroEv]).length = 2 * N := by
          rw [length_writeAt _ _ _ (by simp; omega), h4]
        have hg : ∀ x, (writeAt b i [zeroEv])[x]? = if x = i then some zeroEv else b[x]? :=
          fun x => getElem?_write1 _ _ _ _ (by omega)
        obtain ⟨b', e1, e2, e3, e4, e5⟩ := growLoop_spec N f hf k (i + 1) j _
          (by omega) (by omega) (by omega) hl2
        refine ⟨b', e1, e2, ?_, ?_, ?_⟩
        · intro x hx
          rw [e3 x (by omega), hg, if_neg (by omega)]
        · intro x hx hx'; omega
        · intro x hx hx' hx''
          rw [e5 x hx (by omega) hx'', hg, if_neg (by omega)]

theorem grow_rep (q : Q) (l : List Ev) (h : Rep q l) (hfull : q.n = q.buf.length)
    (junk : List Ev) (hj : junk.length = q.buf.length) :
    ∃ q', grow q junk = .ok q' ∧ Rep q' l ∧ q'.buf.length = 2 * q.buf.length := by
  obtain ⟨h1, h2, h3, h4⟩ := h
  generalize hN : q.buf.length = N at *
  have e1 : N * 2 - (q.n - q.f) = N + q.f := by omega
  have e2 : N * 2 - (q.n - q.f) - q.f = N := by omega
  obtain ⟨b', g1, g2, g3, g4, g5⟩ := growLoop_spec N q.f h3 N q.f 0 (q.buf ++ junk)
    (by omega) (by omega) (by omega) (by simp; omega)
  refine ⟨⟨b', q.n, N + q.f⟩, ?_, ⟨h1, by simp only; omega, by simp only; omega, ?_⟩, by simp only; omega⟩
  · rw [hfull] at e1 e2
    simp only [grow, hN, hfull, e1, e2]
    rw [show N + q.f - q.f = N by omega, g1]; rfl
  · intro k hk
    simp only [g2]
    rw [← h4 k hk]
    by_cases hw : q.f + k < N
    · rw [wrap_lt (by omega), wrap_lt hw]
      have : N + q.f + k = N + (q.f + k) := by omega
      rw [this, g4 _ (by omega) hw, List.getElem?_append_left (by omega)]
    · rw [wrap_ge (by omega) (by omega) (by omega), wrap_ge (by omega) (by omega) (by omega)]
      have : N + q.f + k - 2 * N = q.f + k - N := by omega
      rw [this, g3 _ (by omega), List.getElem?_append_left (by omega)]

theorem append_rep (q : Q) (l : List Ev) (e : Ev) (h : Rep q l) (hlt : q.n < q.buf.length) :
    ∃ q', append q e = .ok q' ∧ Rep q' (l ++ [e]) ∧ q'.buf.length = q.buf.length := by
  obtain ⟨h1, h2, h3, h4⟩ := h
  have hm : (q.f + q.n) % q.buf.length < q.buf.length := Nat.mod_lt _ (by omega)
  have hl : (writeAt q.buf ((q.f + q.n) % q.buf.length) [e]).length = q.buf.length :=
    length_writeAt _ _ _ (by simp; omega)
  refine ⟨⟨writeAt q.buf ((q.f + q.n) % q.buf.length) [e], q.n + 1, q.f⟩, ?_, ⟨?_, ?_, ?_, ?_⟩, hl⟩
  · simp only [append, writeChk, List.length_singleton,
      show (q.f + q.n) % q.buf.length + 1 ≤ q.buf.length from hm, ↓reduceIte, Out.ok_bind, Out.pure_eq]
  · simp [h1]
  · simp only [hl, List.length_append, List.length_singleton]; omega
  · simp only [hl]; exact h3
  · intro k hk
    simp only [hl]
    rw [getElem?_write1 _ _ _ _ hm]
    simp only [List.length_append, List.length_singleton] at hk
    by_cases hkn : k = l.length
    · subst hkn; rw [← h1]; simp [h1]
    · rw [if_neg, h4 k (by omega), List.getElem?_append_left (by omega)]
      intro he
      by_cases hw : q.f + k < q.buf.length
      · rw [wrap_lt hw] at he
        by_cases hw2 : q.f + q.n < q.buf.length
        · rw [wrap_lt hw2] at he; omega
        · rw [wrap_ge h3 (by omega) (by omega)] at he; omega
      · rw [wrap_ge h3 (by omega) (by omega)] at he
        rw [wrap_ge h3 (by omega) (by omega)] at he; omega

theorem take_rep (q : Q) (l : List Ev) (h : Rep q l) :
    ∃ q', take q = .ok (q', l.head?) ∧ Rep q' l.tail ∧ q'.buf.length = q.buf.length := by
  obtain ⟨h1, h2, h3, h4⟩ := h
  cases l with
  | nil => exact ⟨q, by simp [take, h1], ⟨h1, h2, h3, h4⟩, rfl⟩
  | cons e r =>
    have hn : q.n ≠ 0 := by simp [h1]
    have h0 := h4 0 (by simp)
    rw [Nat.add_zero, Nat.mod_eq_of_lt h3] at h0
    refine ⟨⟨q.buf, q.n - 1, (q.f + 1) % q.buf.length⟩, ?_, ⟨by simp [h1], ?_, ?_, ?_⟩, rfl⟩
    · simp only [take, hn, ↓reduceIte, Out.get, h0]; rfl
    · simp at h2 ⊢; omega
    · exact Nat.mod_lt _ (by omega)
    · intro k hk
      have := h4 (k + 1) (by simpa using hk)
      simp only [List.tail_cons, List.getElem?_cons_succ] at this ⊢
      rw [← this, Nat.mod_add_mod]
      congr 2; omega

/-- Removing position `i` of the ring removes it from the sequence. -/
theorem dropAt_rep (q : Q) (l : List Ev) (i : Nat) (h : Rep q l) (hi : i < l.length) :
    ∃ q', dropAt q i = .ok q' ∧ Rep q' (l.eraseIdx i) ∧ q'.buf.length = q.buf.length := by
  obtain ⟨h1, h2, h3, h4⟩ := h
  have hlen : (l.eraseIdx i).length = l.length - 1 := List.length_eraseIdx_of_lt hi
  generalize hN : q.buf.length = N at *
  by_cases hone : q.n > 1
  · have key : ∀ buf' : List Ev, buf'.length = N →
        (∀ k, k < i → buf'[(q.f + k) % N]? = q.buf[(q.f + k) % N]?) →
        (∀ k, i ≤ k → k + 1 < q.n → buf'[(q.f + k) % N]? = q.buf[(q.f + (k + 1)) % N]?) →
        Rep ⟨buf', q.n - 1, q.f⟩ (l.eraseIdx i) := by
      intro buf' hl ha hb
      refine ⟨by simp only [hlen, h1], by simp only [hlen, hl]; omega, by simp only [hl]; exact h3, ?_⟩
      intro k hk
      simp only [hl]
      rw [hlen] at hk
      rw [List.getElem?_eraseIdx]
      by_cases hki : k < i
      · rw [if_pos hki, ha k hki, h4 k (by omega)]
      · rw [if_neg hki, hb k (by omega) (by omega), h4 (k + 1) (by omega)]
    -- positions
    by_cases hwl : q.f + q.n - 1 < N
    · -- no wrap at all
      have hli : (q.f + q.n - 1) % N = q.f + q.n - 1 := Nat.mod_eq_of_lt hwl
      have hii : (q.f + i) % N = q.f + i := wrap_lt (by omega)
      have hs : q.f + i + 1 + (q.f + q.n - 1 - (q.f + i)) ≤ q.buf.length := by omega
      have hsl := length_slice q.buf _ _ hs
      have hw : q.f + i + (slice q.buf (q.f + i + 1) (q.f + q.n - 1 - (q.f + i))).length ≤ q.buf.length := by omega
      have hlw := length_writeAt q.buf _ _ hw
      refine ⟨⟨writeAt q.buf (q.f + i) (slice q.buf (q.f + i + 1) (q.f + q.n - 1 - (q.f + i))), q.n - 1, q.f⟩, ?_,
        key _ (by omega) ?_ ?_, by simp only; omega⟩
      · simp only [dropAt, hN, hone, ↓reduceIte, hli, hii, show q.f + q.n - 1 ≥ q.f + i by omega,
          sliceChk, hs, Out.ok_bind, writeChk, hw, Out.pure_eq]
        simp only [show q.f + i + 1 + (q.f + q.n - 1 - (q.f + i)) ≤ N by omega, ↓reduceIte, Out.ok_bind,
          show q.f + i + (slice q.buf (q.f + i + 1) (q.f + q.n - 1 - (q.f + i))).length ≤ N by omega]
      · intro k hk
        rw [wrap_lt (by omega), getElem?_writeAt _ _ _ _ hw, if_neg (by omega)]
      · intro k hk hk2
        rw [wrap_lt (by omega), wrap_lt (by omega), getElem?_writeAt _ _ _ _ hw,
          if_pos (by omega), getElem?_slice, if_pos (by omega)]
        congr 1; omega
    · have hli : (q.f + q.n - 1) % N = q.f + q.n - 1 - N := by
        have : q.f + q.n - 1 = q.f + (q.n - 1) := by omega
        rw [this, wrap_ge h3 (by omega) (by omega)]
      by_cases hwi : q.f + i < N
      · -- the event is before the wrap, the last one behind
        have hii : (q.f + i) % N = q.f + i := wrap_lt hwi
        have hs : q.f + i + 1 + (N - 1 - (q.f + i)) ≤ q.buf.length := by omega
        have hsl := length_slice q.buf _ _ hs
        have hw : q.f + i + (slice q.buf (q.f + i + 1) (N - 1 - (q.f + i))).length ≤ q.buf.length := by omega
        have hlw := length_writeAt q.buf _ _ hw
        generalize hb1 : writeAt q.buf (q.f + i) (slice q.buf (q.f + i + 1) (N - 1 - (q.f + i))) = b1 at *
        have hg1 : ∀ x, b1[x]? = if q.f + i ≤ x ∧ x < N - 1 then q.buf[x + 1]? else q.buf[x]? := by
          intro x
          rw [← hb1, getElem?_writeAt _ _ _ _ hw, hsl]
          by_cases hx : q.f + i ≤ x ∧ x < N - 1
          · rw [if_pos (by omega), if_pos hx, getElem?_slice, if_pos (by omega)]
            congr 1; omega
          · rw [if_neg (by omega), if_neg hx]
        have hl1 : b1.length = N := by omega
        have h0 : 0 < b1.length := by omega
        have hlw2 : (writeAt b1 (N - 1) [b1[0]]).length = N := by
          rw [length_writeAt _ _ _ (by simp; omega), hl1]
        have hg2 : ∀ x, (writeAt b1 (N - 1) [b1[0]])[x]? = if x = N - 1 then b1[0]? else b1[x]? := by
          intro x
          rw [getElem?_write1 _ _ _ _ (by omega), List.getElem?_eq_getElem h0]
        generalize hb2 : writeAt b1 (N - 1) [b1[0]] = b2 at *
        have hs3 : 1 + (q.f + q.n - 1 - N) ≤ b2.length := by omega
        have hsl3 := length_slice b2 _ _ hs3
        have hw3 : 0 + (slice b2 1 (q.f + q.n - 1 - N)).length ≤ b2.length := by omega
        have hlw3 := length_writeAt b2 _ _ hw3
        refine ⟨⟨writeAt b2 0 (slice b2 1 (q.f + q.n - 1 - N)), q.n - 1, q.f⟩, ?_,
          key _ (by omega) ?_ ?_, by simp only; omega⟩
        · simp only [dropAt, hN, hone, ↓reduceIte, hli, hii,
            show ¬ q.f + q.n - 1 - N ≥ q.f + i by omega, sliceChk,
            show q.f + i + 1 + (N - 1 - (q.f + i)) ≤ N by omega, Out.ok_bind, writeChk,
            show q.f + i + (slice q.buf (q.f + i + 1) (N - 1 - (q.f + i))).length ≤ N by omega, hb1,
            show 0 + 1 ≤ b1.length by omega, slice_one b1 0 h0, List.length_singleton,
            show N - 1 + 1 ≤ b1.length by omega, hb2, hs3, hw3, Out.pure_eq]
        · intro k hk
          rw [wrap_lt (by omega), getElem?_writeAt _ _ _ _ hw3, if_neg (by omega), hg2,
            if_neg (by omega), hg1, if_neg (by omega)]
        · intro k hk hk2
          by_cases hwk : q.f + k < N
          · rw [wrap_lt hwk, getElem?_writeAt _ _ _ _ hw3, if_neg (by omega), hg2]
            by_cases hkl : q.f + k = N - 1
            · rw [if_pos hkl, hg1, if_neg (by omega), wrap_ge h3 (by omega) (by omega)]
              congr 1; omega
            · rw [if_neg hkl, hg1, if_pos (by omega), wrap_lt (by omega)]
              congr 1
          · rw [wrap_ge h3 (by omega) (by omega), getElem?_writeAt _ _ _ _ hw3, if_pos (by omega),
              getElem?_slice, if_pos (by omega), hg2, if_neg (by omega), hg1, if_neg (by omega),
              wrap_ge h3 (by omega) (by omega)]
            congr 1; omega
      · -- both behind the wrap
        have hii : (q.f + i) % N = q.f + i - N := wrap_ge h3 (by omega) (by omega)
        have hs : q.f + i - N + 1 + (q.f + q.n - 1 - N - (q.f + i - N)) ≤ q.buf.length := by omega
        have hsl := length_slice q.buf _ _ hs
        have hw : q.f + i - N + (slice q.buf (q.f + i - N + 1) (q.f + q.n - 1 - N - (q.f + i - N))).length ≤ q.buf.length := by omega
        have hlw := length_writeAt q.buf _ _ hw
        refine ⟨⟨writeAt q.buf (q.f + i - N) (slice q.buf (q.f + i - N + 1) (q.f + q.n - 1 - N - (q.f + i - N))), q.n - 1, q.f⟩, ?_,
          key _ (by omega) ?_ ?_, by simp only; omega⟩
        · simp only [dropAt, hN, hone, ↓reduceIte, hli, hii,
            show q.f + q.n - 1 - N ≥ q.f + i - N by omega, sliceChk,
            show q.f + i - N + 1 + (q.f + q.n - 1 - N - (q.f + i - N)) ≤ N by omega, Out.ok_bind,
            writeChk,
            show q.f + i - N + (slice q.buf (q.f + i - N + 1) (q.f + q.n - 1 - N - (q.f + i - N))).length ≤ N by omega,
            Out.pure_eq]
        · intro k hk
          by_cases hwk : q.f + k < N
          · rw [wrap_lt hwk, getElem?_writeAt _ _ _ _ hw, if_neg (by omega)]
          · rw [wrap_ge h3 (by omega) (by omega), getElem?_writeAt _ _ _ _ hw, if_neg (by omega)]
        · intro k hk hk2
          rw [wrap_ge h3 (by omega) (by omega), wrap_ge h3 (by omega) (by omega),
            getElem?_writeAt _ _ _ _ hw, if_pos (by omega), getElem?_slice, if_pos (by omega)]
          congr 1; omega
  · have hl1 : l.length = 1 := by omega
    have hi0 : i = 0 := by omega
    refine ⟨⟨q.buf, q.n - 1, q.f⟩, by simp only [dropAt, hN, hone, ↓reduceIte],
      ⟨by simp only [hlen]; omega, by simp only [hlen]; omega, by simp only; omega, ?_⟩, hN⟩
    intro k hk; omega

theorem eraseIdx_filter (f : Ev → Bool) (pre : List Ev) (e : Ev) (r : List Ev) :
    (pre ++ e :: r).eraseIdx pre.length = pre ++ r := by
  rw [List.eraseIdx_append_of_length_le (Nat.le_refl _)]
  simp

theorem dropLoop_rep (m : Ev → Bool) : ∀ (k : Nat) (rest pre : List Ev) (q : Q) (d : Nat),
    Rep q (pre ++ rest) → rest.length ≤ k →
    ∃ q', dropLoop m k q pre.length d = .ok (q', d + (rest.filter m).length) ∧
      Rep q' (pre ++ rest.filter (fun e => !m e)) ∧ q'.buf.length = q.buf.length
  | 0, rest, pre, q, d, h, hk => by
      have : rest = [] := List.length_eq_zero_iff.mp (by omega)
      subst this
      exact ⟨q, by simp [dropLoop], by simpa using h, rfl⟩
  | k + 1, [], pre, q, d, h, hk => by
      have hn : q.n = pre.length := by simpa using h.1
      exact ⟨q, by simp [dropLoop, hn], by simpa using h, rfl⟩
  | k + 1, e :: r, pre, q, d, h, hk => by
      have hn : q.n = pre.length + (r.length + 1) := by simpa using h.1
      have hget := h.2.2.2 pre.length (by simp)
      have hget' : q.buf[(q.f + pre.length) % q.buf.length]? = some e := by
        rw [hget]; simp
      by_cases hm : m e = true
      · obtain ⟨q1, h1, h2, h3⟩ := dropAt_rep q _ pre.length h (by simp)
        rw [eraseIdx_filter m] at h2
        obtain ⟨q2, h4, h5, h6⟩ := dropLoop_rep m k r pre q1 (d + 1) h2 (by simp at hk; omega)
        refine ⟨q2, ?_, by simpa [hm] using h5, by omega⟩
        simp only [dropLoop, show pre.length < q.n by omega, ↓reduceIte, Out.get, hget', Out.ok_bind,
          hm, h1, h4, List.filter_cons_of_pos hm, List.length_cons]
        congr 2; omega
      · have h' : Rep q ((pre ++ [e]) ++ r) := by simpa using h
        obtain ⟨q2, h4, h5, h6⟩ := dropLoop_rep m k r (pre ++ [e]) q d h' (by simp at hk; omega)
        refine ⟨q2, ?_, by simpa [hm] using h5, h6⟩
        have hlen : (pre ++ [e]).length = pre.length + 1 := by simp
        rw [hlen] at h4
        simp only [dropLoop, show pre.length < q.n by omega, ↓reduceIte, Out.get, hget', Out.ok_bind,
          hm, h4, List.filter_cons_of_neg hm, Bool.false_eq_true]

end Verif.Process
