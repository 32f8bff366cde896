import Verif.RepJson.Model

/-! Helper lemmas for the JSON dump. -/

namespace Verif.RepJson

/-- The Base64 text of a byte string (the function proved to be RFC 4648 in
`Verif.Base64`). -/
def b64Text (v : List UInt8) : List UInt8 :=
  match Base64.encode .std true v (Base64.encodedSize v.length true) with
  | .ok (some t) => t
  | _ => []

/-- The whole text a program prints. -/
def text : Prog → List UInt8
  | .skip => []
  | .txt t => t
  | .tab d => (List.replicate d (b "  ")).flatten
  | .b64 v => b "\"" ++ b64Text v ++ b "\""
  | .call p => text p
  | .seq p q => text p ++ text q
  | .fault => []

/-- No null pointer and no byte string too long for an `int`. -/
def Good : Prog → Prop
  | .b64 v => Base64.encodedSize v.length true ≤ intMax
  | .call p => Good p
  | .seq p q => Good p ∧ Good q
  | .fault => False
  | _ => True

/-- No indentation. -/
def Plain : Prog → Prop
  | .tab _ => False
  | .call p => Plain p
  | .seq p q => Plain p ∧ Plain q
  | _ => True

theorem b64_encode (v : List UInt8) (cap : Nat) (h : Base64.encodedSize v.length true ≤ cap)
    (hi : Base64.encodedSize v.length true ≤ intMax) :
    Base64.encode .std true v cap = .ok (some (b64Text v)) ∧
      (b64Text v).length = Base64.encodedSize v.length true := by
  obtain ⟨t, h1, h2, -⟩ := Base64.encode_spec .std true v _ (Nat.le_refl _) hi
  obtain ⟨t', h1', h2', -⟩ := Base64.encode_spec .std true v cap h hi
  have ht : b64Text v = t := by rw [b64Text, h1]
  have : t = t' := by
    by_cases h0 : v.length = 0
    · rw [Base64.encode, if_pos h0] at h1 h1'
      simp only [Out.ok.injEq, Option.some.injEq] at h1 h1'
      rw [← h1, ← h1']
    · unfold Base64.encode at h1 h1'
      rw [if_neg h0] at h1 h1'
      simp only [Nat.lt_irrefl, if_false, show ¬ cap < Base64.encodedSize v.length true by omega,
        show ¬ intMax < Base64.encodedSize v.length true by omega] at h1 h1'
      cases hb : Base64.encLoop .std 0 0 v with
      | ub => rw [hb] at h1; simp at h1
      | ok body =>
        rw [hb] at h1 h1'
        simp only [Out.ok_bind, if_true, Bool.not_true, Bool.false_and, Bool.false_eq_true, if_false] at h1 h1'
        split at h1
        · cases h1
        · split at h1'
          · cases h1'
          · simp only [Out.pure_eq, Out.ok.injEq, Option.some.injEq] at h1 h1'
            rw [← h1, ← h1']
  subst this
  rw [ht]
  exact ⟨h1', h2⟩

/-! ## Memory safety -/

/-- The part of the buffer not yet used lies inside it. -/
def Fits (l : Loc) : Prop := l.off + l.size = l.mem.length

theorem snprintf_ok (mem : List UInt8) (off size : Nat) (t : List UInt8) (h : off + size ≤ mem.length) :
    ∃ m, snprintf mem off size t = .ok m ∧ m.length = mem.length := by
  rw [snprintf]
  by_cases h0 : size = 0
  · rw [if_pos h0]; exact ⟨mem, rfl, rfl⟩
  · rw [if_neg h0, writeChk]
    have : off + (t.take (size - 1) ++ [0]).length ≤ mem.length := by
      simp only [List.length_append, List.length_take, List.length_singleton]; omega
    rw [if_pos this]
    exact ⟨_, rfl, length_writeAt _ _ _ this⟩

theorem update_fits (l : Loc) (n : Nat) (h : Fits l) : Fits (l.update n) ∧ (l.update n).mem = l.mem ∧
    (l.update n).null = l.null := by
  unfold Fits Loc.update at *
  split
  · exact ⟨by simp only; omega, rfl, rfl⟩
  · exact ⟨by simp only; omega, rfl, rfl⟩

/-- Relation between the state before and after. -/
def Safe (l : Loc) (o : Out Loc) : Prop :=
  ∃ l', o = .ok l' ∧ Fits l' ∧ l'.mem.length = l.mem.length ∧ l'.null = l.null

theorem safe_update (l : Loc) (m : List UInt8) (n : Nat) (h : Fits l) (hm : m.length = l.mem.length) :
    Safe l (.ok ({ l with mem := m }.update n)) := by
  have h1 : Fits { l with mem := m } := by unfold Fits at *; simp only; omega
  obtain ⟨a, c, d⟩ := update_fits _ n h1
  exact ⟨_, rfl, a, by rw [c]; exact hm, d⟩

theorem emit_safe (l : Loc) (t : List UInt8) (h : Fits l) : Safe l (l.emit t) := by
  obtain ⟨m, e, hm⟩ := snprintf_ok l.mem l.off l.size t (by unfold Fits at h; omega)
  rw [Loc.emit, e]
  exact safe_update l m _ h hm

theorem tabLoop_safe (n : Nat) : ∀ (mem : List UInt8) (off size total : Nat) (null : Bool),
    off + size ≤ mem.length → ∃ m k, tabLoop n mem off size total null = .ok (m, k) ∧ m.length = mem.length := by
  induction n with
  | zero => intro mem off size total null _; exact ⟨mem, total, rfl, rfl⟩
  | succ n ih =>
    intro mem off size total null h
    obtain ⟨m, e, hm⟩ := snprintf_ok mem off size (b "  ") h
    rw [tabLoop, e, Out.bind]
    cases null with
    | true =>
      obtain ⟨m', k, e', h'⟩ := ih m off size (total + 2) true (by omega)
      exact ⟨m', k, by simpa using e', by omega⟩
    | false =>
      simp only [Bool.false_eq_true, if_false]
      by_cases hs : 2 ≥ size
      · rw [if_pos hs]; exact ⟨m, _, rfl, hm⟩
      · rw [if_neg hs]
        obtain ⟨m', k, e', h'⟩ := ih m (off + 2) (size - 2) (total + 2) false (by omega)
        exact ⟨m', k, e', by omega⟩

theorem b64_safe (l : Loc) (v : List UInt8) (h : Fits l) (hv : Base64.encodedSize v.length true ≤ intMax) :
    Safe l (b64Call l v) := by
  obtain ⟨l1, e1, f1, m1, n1⟩ := emit_safe l (b "\"") h
  rw [b64Call, e1, Out.bind]
  have key : Safe l1 (b64Mid l1 v) := by
    rw [b64Mid]
    by_cases hs : l1.size > Base64.encodedSize v.length true + 1
    · rw [if_pos hs]
      obtain ⟨e, hl⟩ := b64_encode v (Base64.encodedSize v.length true + 1) (by omega) hv
      rw [e, Out.bind]
      dsimp only
      have hle : l1.off + (b64Text v).length ≤ l1.mem.length := by
        rw [hl]; unfold Fits at f1; omega
      rw [writeChk, if_pos hle, Out.bind]
      exact safe_update l1 _ _ f1 (length_writeAt _ _ _ hle)
    · rw [if_neg hs]
      refine ⟨_, rfl, ?_, rfl, rfl⟩
      unfold Fits at *; simp only; omega
  obtain ⟨l2, e2, f2, m2, n2⟩ := key
  rw [e2, Out.bind]
  obtain ⟨l3, e3, f3, m3, n3⟩ := emit_safe l2 (b "\"") f2
  exact ⟨l3, e3, f3, by omega, by rw [n3, n2, n1]⟩

theorem run_safe (p : Prog) : ∀ (l : Loc), Fits l → Good p → Safe l (run p l) := by
  induction p with
  | skip => intro l h _; exact ⟨l, rfl, h, rfl, rfl⟩
  | txt t => intro l h _; exact emit_safe l t h
  | tab d =>
    intro l h _
    obtain ⟨m, k, e, hm⟩ := tabLoop_safe d l.mem l.off l.size 0 l.null (by unfold Fits at h; omega)
    rw [run, e]
    exact safe_update l m k h hm
  | b64 v => intro l h hg; exact b64_safe l v h hg
  | call p ih =>
    intro l h hg
    obtain ⟨i, e, _, hm, _⟩ := ih { l with total := 0 } h hg
    rw [run, e]
    exact safe_update l i.mem i.total h hm
  | seq p q ihp ihq =>
    intro l h hg
    obtain ⟨l1, e1, f1, m1, n1⟩ := ihp l h hg.1
    obtain ⟨l2, e2, f2, m2, n2⟩ := ihq l1 f1 hg.2
    exact ⟨l2, by rw [run, e1]; exact e2, f2, by omega, by rw [n2, n1]⟩
  | fault => intro l _ hg; exact hg.elim

/-! ## Exact contents -/

/-- After `acc` was printed into a buffer of `N` bytes; `nul` is required only if
the buffer is full. -/
structure Weak (N : Nat) (acc : List UInt8) (l : Loc) : Prop where
  len : l.mem.length = N
  off : l.off = min acc.length N
  size : l.size = N - acc.length
  pre : acc.length < N → l.mem.take acc.length = acc
  nul : N ≤ acc.length → 0 < N → ∃ k, k < N ∧ l.mem.take k = acc.take k ∧ l.mem[k]? = some 0

/-- The same with a terminating NUL after what was printed. -/
structure Strong (N : Nat) (acc : List UInt8) (l : Loc) : Prop where
  weak : Weak N acc l
  term : acc.length < N → acc ≠ [] → l.mem[acc.length]? = some 0

theorem take_writeAt (mem bs : List UInt8) (off k : Nat) (h : off + bs.length ≤ mem.length) (hk : k ≤ bs.length) :
    (writeAt mem off bs).take (off + k) = mem.take off ++ bs.take k := by
  rw [writeAt, List.append_assoc, List.take_append, List.length_take, List.take_take]
  have h1 : min off mem.length = off := by omega
  rw [h1, show min (off + k) off = off by omega, show off + k - off = k by omega,
    List.take_append_of_le_length hk]

theorem emit_exact (N : Nat) (acc : List UInt8) (l : Loc) (h : Weak N acc l) (t : List UInt8) :
    ∃ l', l.emit t = .ok l' ∧ Weak N (acc ++ t) l' ∧
      ((acc ++ t).length < N → l'.mem[(acc ++ t).length]? = some 0) ∧
      l'.total = sz (l.total + t.length) ∧ l'.null = l.null := by
  have hl := h.len; have ho := h.off; have hs := h.size
  rw [Loc.emit]
  by_cases h0 : l.size = 0
  · rw [snprintf, if_pos h0, Out.bind, Loc.update, if_neg (by simp only; omega)]
    refine ⟨_, rfl, ⟨hl, ?_, ?_, ?_, ?_⟩, ?_, rfl, rfl⟩
    · simp only [List.length_append]; omega
    · simp only [List.length_append]; omega
    · intro hx; simp only [List.length_append] at hx; omega
    · intro _ hN
      obtain ⟨k, a, c, d⟩ := h.nul (by omega) hN
      refine ⟨k, a, ?_, d⟩
      rw [List.take_append_of_le_length (by omega)]; exact c
    · intro hx; simp only [List.length_append] at hx; omega
  · have hlt : acc.length < N := by omega
    have hpre := h.pre hlt
    rw [snprintf, if_neg h0]
    have hw : l.off + (t.take (l.size - 1) ++ [0]).length ≤ l.mem.length := by
      simp only [List.length_append, List.length_take, List.length_singleton]; omega
    have hoff : l.off = acc.length := by omega
    have htk : ∀ k, k ≤ min (l.size - 1) t.length →
        (writeAt l.mem l.off (t.take (l.size - 1) ++ [0])).take (acc.length + k) = acc ++ t.take k := by
      intro k hk
      rw [hoff] at hw ⊢
      rw [take_writeAt _ _ _ _ hw (by simp only [List.length_append, List.length_take, List.length_singleton]; omega),
        hpre, List.take_append_of_le_length (by rw [List.length_take]; omega), List.take_take]
      congr 2; omega
    have hnul : (writeAt l.mem l.off (t.take (l.size - 1) ++ [0]))[acc.length + min (l.size - 1) t.length]? = some 0 := by
      rw [getElem?_writeAt _ _ _ _ hw, if_pos (by
        simp only [List.length_append, List.length_take, List.length_singleton]; omega)]
      rw [List.getElem?_append_right (by rw [List.length_take]; omega), List.length_take, hoff,
        show acc.length + min (l.size - 1) t.length - acc.length - min (l.size - 1) t.length = 0 by omega]
      rfl
    rw [writeChk, if_pos hw, Out.bind, Loc.update]
    by_cases ht : t.length < l.size
    · rw [if_pos ht]
      refine ⟨_, rfl, ⟨?_, ?_, ?_, ?_, ?_⟩, ?_, rfl, rfl⟩
      · simp only [length_writeAt _ _ _ hw, hl]
      · simp only [List.length_append]; omega
      · simp only [List.length_append]; omega
      · intro _
        simp only [List.length_append]
        rw [htk _ (by omega), List.take_length]
      · intro hx; simp only [List.length_append] at hx; omega
      · intro _
        simp only [List.length_append]
        rw [show min (l.size - 1) t.length = t.length by omega] at hnul
        exact hnul
    · rw [if_neg ht]
      refine ⟨_, rfl, ⟨?_, ?_, ?_, ?_, ?_⟩, ?_, rfl, rfl⟩
      · simp only [length_writeAt _ _ _ hw, hl]
      · simp only [List.length_append]; omega
      · simp only [List.length_append]; omega
      · intro hx; simp only [List.length_append] at hx; omega
      · intro _ _
        refine ⟨acc.length + (l.size - 1), by omega, ?_, ?_⟩
        · simp only
          rw [htk _ (by omega), List.take_length_add_append]
        · rw [show min (l.size - 1) t.length = l.size - 1 by omega] at hnul
          exact hnul
      · intro hx; simp only [List.length_append] at hx; omega

/-- When the exact statement holds: no indentation, a null buffer, or enough room. -/
def Cond (N : Nat) (acc : List UInt8) (null : Bool) (p : Prog) : Prop :=
  Plain p ∨ (null = true ∧ N = 0) ∨ acc.length + (text p).length < N

def Exact (N : Nat) (acc t : List UInt8) (l : Loc) (o : Out Loc) : Prop :=
  ∃ l', o = .ok l' ∧ Strong N (acc ++ t) l' ∧ l'.total = sz (l.total + t.length) ∧ l'.null = l.null

theorem update_eq (l : Loc) (n : Nat) (N : Nat) (acc : List UInt8) (h : Weak N acc l) :
    (l.update n).off = min (acc.length + n) N ∧ (l.update n).size = N - (acc.length + n) := by
  have ho := h.off; have hs := h.size
  unfold Loc.update
  split
  · exact ⟨by simp only; omega, by simp only; omega⟩
  · exact ⟨by simp only; omega, by simp only; omega⟩

theorem sz_sz (a c : Nat) : sz (sz a + c) = sz (a + c) := by unfold sz; omega
theorem sz_add_sz (a c : Nat) : sz (a + sz c) = sz (a + c) := by unfold sz; omega

theorem tab_text_len (d : Nat) : (text (.tab d)).length = 2 * d := by
  induction d with
  | zero => rfl
  | succ d ih =>
    simp only [text, List.replicate_succ, List.flatten_cons, List.length_append] at ih ⊢
    have : (b "  ").length = 2 := by decide
    omega

/-- Indentation with enough room. -/
theorem tabLoop_exact (N : Nat) : ∀ (n : Nat) (acc : List UInt8) (l : Loc) (tot : Nat), Weak N acc l →
    (l.null = true → N = 0) → acc.length + 2 * n < N →
    ∃ m, tabLoop n l.mem l.off l.size tot l.null = .ok (m, tot + 2 * n) ∧
      m.length = N ∧ m.take (acc.length + 2 * n) = acc ++ text (.tab n) ∧
      (m = l.mem ∧ n = 0 ∨ m[acc.length + 2 * n]? = some 0) := by
  intro n
  induction n with
  | zero =>
    intro acc l tot h _ hlt
    refine ⟨l.mem, rfl, h.len, ?_, .inl ⟨rfl, rfl⟩⟩
    simp only [text, List.replicate_zero, List.flatten_nil, List.append_nil]
    exact h.pre (by omega)
  | succ n ih =>
    intro acc l tot h hnull hlt
    have hs := h.size
    have hn : l.null = false := by
      cases hx : l.null with
      | false => rfl
      | true => have := hnull hx; omega
    have hb : (b "  ").length = 2 := by decide
    obtain ⟨l', e, w, hz, -, hnl⟩ := emit_exact N acc l h (b "  ")
    rw [Loc.emit] at e
    cases hsn : snprintf l.mem l.off l.size (b "  ") with
    | ub => rw [hsn] at e; cases e
    | ok m1 =>
      rw [hsn, Out.bind, Loc.update, if_pos (by simp only; omega)] at e
      injection e with e
      have w' := w
      rw [← e] at w'
      obtain ⟨m, e2, h1, h2, h3⟩ := ih (acc ++ b "  ") l' (tot + 2) w (by rw [hnl]; exact hnull) (by
        rw [List.length_append, hb]; omega)
      rw [tabLoop, hsn, Out.bind]
      have hlm : l'.mem = m1 ∧ l'.off = l.off + 2 ∧ l'.size = l.size - 2 ∧ l'.null = l.null := by
        rw [← e]; exact ⟨rfl, by simp only [hb], by simp only [hb], rfl⟩
      rw [hlm.1, hlm.2.1, hlm.2.2.1, hlm.2.2.2] at e2
      rw [hn] at e2 ⊢
      simp only [Bool.false_eq_true, if_false]
      rw [if_neg (by omega), e2]
      rw [List.length_append, hb] at h2 h3
      refine ⟨m, by congr 2; omega, h1, ?_, ?_⟩
      · rw [show acc.length + 2 * (n + 1) = acc.length + 2 + 2 * n by omega, h2]
        simp [text, List.replicate_succ]
      · right
        rcases h3 with ⟨rfl, rfl⟩ | h3
        · have := hz (by rw [List.length_append, hb]; omega)
          rw [List.length_append, hb] at this
          exact this
        · rw [show acc.length + 2 * (n + 1) = acc.length + 2 + 2 * n by omega]; exact h3

theorem tabLoop_null (n : Nat) : ∀ (mem : List UInt8) (off tot : Nat),
    tabLoop n mem off 0 tot true = .ok (mem, tot + 2 * n) := by
  induction n with
  | zero => intro mem off tot; rfl
  | succ n ih =>
    intro mem off tot
    rw [tabLoop, snprintf, if_pos rfl, Out.bind]
    simp only [if_true]
    rw [ih]; congr 2; omega

theorem b64_exact (N : Nat) (acc : List UInt8) (l : Loc) (h : Weak N acc l) (v : List UInt8)
    (hv : Base64.encodedSize v.length true ≤ intMax) :
    Exact N acc (b "\"" ++ b64Text v ++ b "\"") l (b64Call l v) := by
  have hb : (b "\"").length = 1 := by decide
  obtain ⟨ee, hl⟩ := b64_encode v (Base64.encodedSize v.length true + 1) (by omega) hv
  obtain ⟨l1, e1, w1, z1, t1, n1⟩ := emit_exact N acc l h (b "\"")
  rw [b64Call, e1, Out.bind, b64Mid]
  have hs1 := w1.size; have ho1 := w1.off; have hl1 := w1.len
  rw [List.length_append, hb] at hs1 ho1
  by_cases hs : l1.size > Base64.encodedSize v.length true + 1
  · rw [if_pos hs, ee, Out.bind]
    dsimp only
    have hle : l1.off + (b64Text v).length ≤ l1.mem.length := by omega
    rw [writeChk, if_pos hle, Out.bind, Out.bind]
    -- the state after the Base64 text
    have hw2 : Weak N (acc ++ b "\"" ++ b64Text v)
        ({ l1 with mem := writeAt l1.mem l1.off (b64Text v) }.update (b64Text v).length) := by
      have hlt : acc.length + 1 + (b64Text v).length < N := by omega
      unfold Loc.update
      rw [if_pos (by simp only; omega)]
      refine ⟨by simp only [length_writeAt _ _ _ hle, hl1], ?_, ?_, ?_, ?_⟩
      · simp only [List.length_append, hb]; omega
      · simp only [List.length_append, hb]; omega
      · intro _
        have hp := w1.pre (by rw [List.length_append, hb]; omega)
        have hoff : l1.off = (acc ++ b "\"").length := by rw [List.length_append, hb]; omega
        simp only
        have hle' : (acc ++ b "\"").length + (b64Text v).length ≤ l1.mem.length := by rw [← hoff]; exact hle
        rw [List.length_append (bs := b64Text v), hoff, take_writeAt _ _ _ _ hle' (Nat.le_refl _), hp, List.take_length]
      · intro hx; simp only [List.length_append, hb] at hx; omega
    obtain ⟨l3, e3, w3, z3, t3, n3⟩ := emit_exact N _ _ hw2 (b "\"")
    refine ⟨l3, e3, ⟨by simpa using w3, ?_⟩, ?_, ?_⟩
    · intro hx _
      simp only [List.append_assoc] at z3 hx ⊢
      exact z3 hx
    · rw [t3]
      have : ({ l1 with mem := writeAt l1.mem l1.off (b64Text v) }.update (b64Text v).length).total =
          sz (l1.total + (b64Text v).length) := by unfold Loc.update; split <;> rfl
      rw [this, t1, sz_sz, sz_add_sz_comm]
      simp only [List.length_append]
      congr 1; omega
    · rw [n3]
      have : ({ l1 with mem := writeAt l1.mem l1.off (b64Text v) }.update (b64Text v).length).null = l1.null := by
        unfold Loc.update; split <;> rfl
      rw [this, n1]
  · rw [if_neg hs, Out.bind, Loc.emit, snprintf]
    simp only [if_true]
    rw [Out.bind, Loc.update, if_neg (by simp only; omega)]
    refine ⟨_, rfl, ⟨⟨hl1, ?_, ?_, ?_, ?_⟩, ?_⟩, ?_, ?_⟩
    · simp only [List.length_append, hb]; omega
    · simp only [List.length_append, hb]; omega
    · intro hx; simp only [List.length_append, hb] at hx; omega
    · intro _ hN
      by_cases hx : N ≤ (acc ++ b "\"").length
      · obtain ⟨k, a, c, d⟩ := w1.nul hx hN
        refine ⟨k, a, ?_, d⟩
        simp only
        rw [c, List.append_assoc, ← List.append_assoc acc,
          List.take_append_of_le_length (l₁ := acc ++ b "\"") (by omega)]
      · refine ⟨(acc ++ b "\"").length, by omega, ?_, z1 (by omega)⟩
        simp only
        rw [w1.pre (by omega), List.append_assoc, ← List.append_assoc acc, List.take_left' rfl]
    · intro hx; simp only [List.length_append, hb] at hx; omega
    · simp only
      rw [sz_sz, t1, sz_add_sz_comm]
      simp only [List.length_append, hb, hl]
      congr 1; omega
    · exact n1
where
  sz_add_sz_comm {a c : Nat} {d : Nat} : sz (sz a + c + d) = sz (a + c + d) := by unfold sz; omega

theorem Weak.setTotal {N : Nat} {acc : List UInt8} {l : Loc} (h : Weak N acc l) (n : Nat) :
    Weak N acc { l with total := n } := ⟨h.len, h.off, h.size, h.pre, h.nul⟩

/-- Replacing the memory and moving on. -/
theorem strong_update (N : Nat) (acc t m : List UInt8) (l : Loc) (h : Weak N acc l) (hm : m.length = N)
    (hpre : (acc ++ t).length < N → m.take (acc ++ t).length = acc ++ t)
    (hz : (acc ++ t).length < N → acc ++ t ≠ [] → m[(acc ++ t).length]? = some 0)
    (hn : N ≤ (acc ++ t).length → 0 < N → ∃ k, k < N ∧ m.take k = (acc ++ t).take k ∧ m[k]? = some 0)
    (n : Nat) (ht : n = t.length ∨ n = sz t.length ∧ t.length < 2 ^ 64) :
    Exact N acc t l (.ok ({ l with mem := m }.update n)) := by
  have hnt : n = t.length := by
    rcases ht with h | ⟨h, h'⟩
    · exact h
    · rw [h, sz, Nat.mod_eq_of_lt h']
  subst hnt
  have hs := h.size; have ho := h.off
  have e1 : ({ l with mem := m }.update t.length).mem = m := by unfold Loc.update; split <;> rfl
  have e2 : ({ l with mem := m }.update t.length).off = min (acc ++ t).length N := by
    rw [List.length_append]
    unfold Loc.update; split <;> simp_all <;> omega
  have e3 : ({ l with mem := m }.update t.length).size = N - (acc ++ t).length := by
    rw [List.length_append]
    unfold Loc.update; split <;> simp_all <;> omega
  refine ⟨_, rfl, ⟨⟨by rw [e1]; exact hm, e2, e3, by rw [e1]; exact hpre, by rw [e1]; exact hn⟩, by
    rw [e1]; exact hz⟩, ?_, ?_⟩
  · unfold Loc.update; split <;> rfl
  · unfold Loc.update; split <;> rfl

theorem run_exact (N : Nat) (p : Prog) : ∀ (acc : List UInt8) (l : Loc), Strong N acc l → Good p →
    Cond N acc l.null p → (l.null = true → N = 0) → l.total < 2 ^ 64 → (text p).length < 2 ^ 64 →
    Exact N acc (text p) l (run p l) := by
  induction p with
  | skip =>
    intro acc l h _ _ _ ht _
    exact ⟨l, rfl, by rw [text, List.append_nil]; exact h, by
      rw [text, List.length_nil, Nat.add_zero, sz, Nat.mod_eq_of_lt ht], rfl⟩
  | txt t =>
    intro acc l h _ _ _ _ _
    obtain ⟨l', e, w, z, t', n⟩ := emit_exact N acc l h.weak t
    exact ⟨l', e, ⟨w, fun hx _ => z hx⟩, t', n⟩
  | tab d =>
    intro acc l h _ hc hnull _ hlt
    have hlen := tab_text_len d
    have hw := h.weak
    rcases hc with hc | ⟨hc, hN⟩ | hc
    · exact hc.elim
    · subst hN
      have hs := hw.size
      have hl : l.mem = [] := List.eq_nil_of_length_eq_zero hw.len
      have e : tabLoop d l.mem l.off l.size 0 l.null = .ok (l.mem, 0 + 2 * d) := by
        rw [show l.size = 0 by omega, hc, tabLoop_null]
      rw [run, e, Out.bind]
      refine strong_update 0 acc (text (.tab d)) l.mem l hw hw.len ?_ ?_ ?_ _ (.inl (by simp only; omega))
      · intro hx; omega
      · intro hx; omega
      · intro _ hx; omega
    · obtain ⟨m, e, h1, h2, h3⟩ := tabLoop_exact N d acc l 0 hw hnull (by omega)
      rw [run, e, Out.bind]
      refine strong_update N acc (text (.tab d)) m l hw h1 ?_ ?_ ?_ _ (.inl (by simp only; omega))
      · intro _; rw [List.length_append, hlen]; exact h2
      · intro hx hne
        rw [List.length_append, hlen]
        rcases h3 with ⟨rfl, rfl⟩ | h3
        · simp only [text, List.replicate_zero, List.flatten_nil, List.append_nil] at hne
          exact h.term (by omega) hne
        · exact h3
      · intro hx; rw [List.length_append] at hx; omega
  | b64 v => intro acc l h hg _ _ _ _; exact b64_exact N acc l h.weak v hg
  | call p ih =>
    intro acc l h hg hc hnull _ hlt
    obtain ⟨i, e, s, t, _⟩ := ih acc { l with total := 0 } ⟨h.weak.setTotal 0, h.term⟩ hg hc hnull
      (by simp only; omega) hlt
    rw [run, e, Out.bind]
    simp only [Nat.zero_add] at t
    exact strong_update N acc (text p) i.mem l h.weak s.weak.len s.weak.pre s.term s.weak.nul i.total
      (.inr ⟨t, hlt⟩)
  | seq p q ihp ihq =>
    intro acc l h hg hc hnull ht hlt
    simp only [text, List.length_append] at hlt
    obtain ⟨l1, e1, s1, t1, n1⟩ := ihp acc l h hg.1 (by
      rcases hc with hc | hc | hc
      · exact .inl hc.1
      · exact .inr (.inl hc)
      · simp only [text, List.length_append] at hc; exact .inr (.inr (by omega))) hnull ht (by omega)
    obtain ⟨l2, e2, s2, t2, n2⟩ := ihq (acc ++ text p) l1 s1 hg.2 (by
      rcases hc with hc | hc | hc
      · exact .inl hc.2
      · rw [n1]; exact .inr (.inl hc)
      · simp only [text, List.length_append] at hc
        exact .inr (.inr (by rw [List.length_append]; omega))) (by rw [n1]; exact hnull)
      (by rw [t1, sz]; omega) (by omega)
    refine ⟨l2, by rw [run, e1]; exact e2, ?_, ?_, by rw [n2, n1]⟩
    · rw [text, ← List.append_assoc]; exact s2
    · rw [t2, t1, sz_sz, text, List.length_append]; congr 1; omega
  | fault => intro _ _ _ hg; exact hg.elim

end Verif.RepJson
