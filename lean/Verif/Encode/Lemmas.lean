import Verif.Encode.Spec

namespace Verif.Encode

theorem put_same {α} (f : Nat → α) (i a) : put f i a i = a := by simp [put]
theorem put_ne {α} (f : Nat → α) {i j} (a) (h : j ≠ i) : put f i a j = f j := by simp [put, h]
theorem put_put {α} (f : Nat → α) (i a b) : put (put f i a) i b = put f i b := by
  funext j; simp only [put]; split <;> rfl
theorem put_self {α} (f : Nat → α) (i) : put f i (f i) = f := by
  funext j; simp only [put]; split
  · next h => rw [h]
  · rfl

theorem grown_le {size max needed} (h : size + needed ≤ max) : size + needed ≤ grown size max needed := by
  unfold grown; split <;> omega

theorem write_end {off d b} (h : b.data.length = off) : write off d b = { b with data := b.data ++ d } := by
  unfold write
  rw [List.take_of_length_le (by omega), List.drop_eq_nil_of_le (by omega)]
  simp

/-- The encoder is at the end of what was written to its memory. -/
structure At (s : St) (i : Nat) (p : Bytes) : Prop where
  buf : s.enc.buf = some i
  live : (s.mem i).live = true
  data : (s.mem i).data = p
  size : (s.mem i).size = s.enc.size
  off : s.enc.off = p.length
  err : s.enc.err = false
  room : p.length ≤ s.enc.size

/-- Only the memory `i` and the position and size of the encoder changed. -/
structure Only (i : Nat) (s s' : St) : Prop where
  mem : ∃ b, s'.mem = put s.mem i b
  next : s'.next = s.next
  fmt : s'.enc.fmt = s.enc.fmt
  max : s'.enc.max = s.enc.max
  realloc : s'.enc.realloc = s.enc.realloc
  cbs : s'.cbs = s.cbs
  ncb : s'.ncb = s.ncb
  disp : s'.disp = s.disp
  pkt : s'.pkt = s.pkt
  acc : s'.acc = s.acc
  rbuf : s'.rbuf = s.rbuf
  ref : s'.ref = s.ref
  upd : s'.upd = s.upd
  cur : s'.cur = s.cur
  out : s'.out = s.out

theorem Only.refl (i : Nat) (s : St) : Only i s s :=
  ⟨⟨s.mem i, (put_self _ _).symm⟩, rfl, rfl, rfl, rfl, rfl, rfl, rfl, rfl, rfl, rfl, rfl, rfl, rfl, rfl⟩

theorem Only.trans {i a b d} (h : Only i a b) (k : Only i b d) : Only i a d := by
  obtain ⟨⟨x, hx⟩, h1, h2, h3, h4, h5, h6, h7, h8, h9, h10, h11, h12, h13, h14⟩ := h
  obtain ⟨⟨y, hy⟩, k1, k2, k3, k4, k5, k6, k7, k8, k9, k10, k11, k12, k13, k14⟩ := k
  refine ⟨⟨y, ?_⟩, k1.trans h1, k2.trans h2, k3.trans h3, k4.trans h4, k5.trans h5, k6.trans h6, k7.trans h7, k8.trans h8,
    k9.trans h9, k10.trans h10, k11.trans h11, k12.trans h12, k13.trans h13, k14.trans h14⟩
  rw [hy, hx, put_put]

theorem Only.other {i j s s'} (h : Only i s s') (hj : j ≠ i) : s'.mem j = s.mem j := by
  obtain ⟨b, hb⟩ := h.mem
  rw [hb, put_ne _ _ hj]

theorem encode_at {c v s i p} (h : At s i p)
    (hf : p.length + (c.enc s.enc.fmt v).length ≤ if s.enc.realloc = true then s.enc.max else s.enc.size) :
    ∃ s', encode c v s = .ok s' ∧ At s' i (p ++ c.enc s.enc.fmt v) ∧ Only i s s' ∧
      (s.enc.realloc = false → s'.enc.size = s.enc.size) := by
  obtain ⟨hb, hl, hd, hs, ho, he, hr⟩ := h
  unfold encode
  dsimp only
  rw [he]
  simp only [Bool.false_eq_true, if_false]
  by_cases h1 : s.enc.off + (c.enc s.enc.fmt v).length ≤ s.enc.size
  · rw [if_pos h1, hb]
    dsimp only
    rw [hl]
    simp only [Bool.not_true, Bool.false_eq_true, if_false]
    refine ⟨_, rfl, ⟨rfl, ?_, ?_, ?_, ?_, rfl, ?_⟩, ⟨⟨_, rfl⟩, rfl, rfl, rfl, rfl, rfl, rfl, rfl, rfl, rfl, rfl, rfl, rfl, rfl, rfl⟩, fun _ => rfl⟩
    · dsimp only; rw [put_same]; exact hl
    · dsimp only; rw [put_same, write_end (by rw [hd, ho])]; dsimp only; rw [hd]
    · dsimp only; rw [put_same]; exact hs
    · dsimp only; rw [ho, List.length_append]
    · dsimp only; rw [List.length_append]; omega
  · rw [if_neg h1]
    by_cases h2 : s.enc.realloc = true
    · rw [h2] at hf
      simp only [if_true] at hf
      rw [h2, hb]
      have h3 : s.enc.off + (c.enc s.enc.fmt v).length ≤ s.enc.max := by omega
      simp only [h3, decide_true, Bool.and_self, if_true]
      rw [hl]
      simp only [Bool.not_true, Bool.false_eq_true, if_false]
      refine ⟨_, rfl, ⟨rfl, ?_, ?_, ?_, ?_, rfl, ?_⟩, ⟨⟨_, rfl⟩, rfl, rfl, rfl, ?_, rfl, rfl, rfl, rfl, rfl, rfl, rfl, rfl, rfl, rfl⟩, fun h => by cases h⟩
      · dsimp only; rw [put_same]; exact hl
      · dsimp only; rw [put_same, write_end (by rw [hd, ho])]; dsimp only; rw [hd]
      · dsimp only; rw [put_same]
      · dsimp only; rw [ho, List.length_append]
      · dsimp only; rw [List.length_append]
        have := grown_le (size := s.enc.size) (max := s.enc.max) (needed := s.enc.off + (c.enc s.enc.fmt v).length - s.enc.size) (by omega)
        omega
      · exact h2.symm
    · have h2' : s.enc.realloc = false := by simpa using h2
      rw [h2'] at hf
      simp at hf
      omega

theorem encodes_at {c} : ∀ {vs s i p}, At s i p →
    p.length + (text c s.enc.fmt vs).length ≤ (if s.enc.realloc = true then s.enc.max else s.enc.size) →
    ∃ s', encodes c vs s = .ok s' ∧ At s' i (p ++ text c s.enc.fmt vs) ∧ Only i s s'
  | [], s, i, p, h, _ => ⟨s, rfl, by simpa [text] using h, Only.refl i s⟩
  | v :: vs, s, i, p, h, hf => by
    simp only [text, List.length_append] at hf
    obtain ⟨s1, e1, a1, o1, z1⟩ := encode_at (c := c) (v := v) h (by omega)
    have := encodes_at (c := c) (vs := vs) a1 (by
      rw [o1.fmt, o1.max, o1.realloc, List.length_append]
      by_cases hr : s.enc.realloc = true
      · simp only [hr, if_true] at hf ⊢
        omega
      · have hr' : s.enc.realloc = false := by simpa using hr
        rw [z1 hr']
        simp only [hr', Bool.false_eq_true, if_false] at hf ⊢
        omega)
    obtain ⟨s2, e2, a2, o2⟩ := this
    refine ⟨s2, ?_, ?_, o1.trans o2⟩
    · simp only [encodes, e1]
      exact e2
    · rw [o1.fmt, List.append_assoc] at a2
      exact a2

theorem run_append {c} : ∀ {a b s}, run c (a ++ b) s = (run c a s).bind (run c b)
  | [], b, s => rfl
  | o :: os, b, s => by
    simp only [List.cons_append, run]
    cases h : step c o s with
    | ub => rfl
    | ok s1 => exact run_append (a := os)

theorem run_encodes {c} : ∀ {vs s}, run c (vs.map .encode) s = encodes c vs s
  | [], s => rfl
  | v :: vs, s => by
    simp only [List.map_cons, run, encodes, step]
    cases h : encode c v s with
    | ub => rfl
    | ok s1 => exact run_encodes

theorem named_eq (f : Fmt) : cfOf f = named f := by cases f <;> rfl

theorem take_all {s i p} (h : At s i p) : (s.mem i).data.take p.length = p := by
  rw [h.data]; exact List.take_length

theorem read_at {s i p} (h : At s i p) : read i p.length s = .ok (.bytes p) := by
  unfold read
  have hz : ¬ (s.mem i).size < p.length := by rw [h.size]; have := h.room; omega
  rw [h.live, if_neg (by simp), if_neg hz, if_pos (by rw [h.data]; omega), take_all h]

theorem size_at {s i p} (h : At s i p) : size s.enc = some p.length := by
  unfold size
  rw [h.err, h.off]
  rfl

/-! ### What is kept -/

/-- Nothing is in preparation, the buffers of client callbacks have been allocated and none is the
memory of the answer being made. -/
structure Good (s : St) : Prop where
  rbuf : s.rbuf = none
  cbs : ∀ id i, (s.cbs id).rbuf = some i → i < s.next ∧ ∀ u, s.cur = some u → u.buf ≠ i
  cur : ∀ u, s.cur = some u → u.buf < s.next

/-- What is needed of the outcome of something done: it leaves the answer being made alone. -/
structure Kept (s s' : St) : Prop where
  good : Good s'
  cur : s'.cur = s.cur
  mem : ∀ u, s.cur = some u → s'.mem u.buf = s.mem u.buf
  fmt : s'.enc.fmt = s.enc.fmt
  enc : ∀ u, s.cur = some u → s'.enc.buf = some u.buf → s'.enc = s.enc

theorem free_at {s i} (h : (s.mem i).live = true) : free i s = .ok { s with mem := put s.mem i { s.mem i with live := false } } := by
  unfold free; rw [if_pos h]

theorem alloc_at {c n s} : At (newFixed (alloc n s).1 n (alloc n s).2) s.next [] ∧ At (newGrow (alloc n s).1 n c (alloc n s).2) s.next [] := by
  constructor <;>
  · refine ⟨rfl, ?_, ?_, ?_, rfl, rfl, by simp⟩ <;>
    simp [alloc, newFixed, newGrow, put_same]

theorem dump_ok {c name vs s} (hf : (text c s.enc.fmt vs).length ≤ c.maxApp) :
    ∃ s', dump c name vs s = .ok s' ∧ s'.out = s.out ++ [.stored name (.bytes (text c s.enc.fmt vs))] ∧
      s'.cur = s.cur ∧ s'.rbuf = s.rbuf ∧ s'.cbs = s.cbs ∧ s'.next = s.next + 1 ∧ s'.disp = s.disp ∧ s'.upd = s.upd ∧ s'.ref = s.ref ∧
      s'.pkt = s.pkt ∧ s'.acc = s.acc ∧
      s'.enc.fmt = s.enc.fmt ∧ s'.enc.buf = some s.next ∧ ∀ j, j ≠ s.next → s'.mem j = s.mem j := by
  have h0 := (alloc_at (c := c.maxApp) (n := c.minApp) (s := s)).2
  obtain ⟨s1, e1, a1, o1⟩ := encodes_at (c := c) (vs := vs) h0 (by
    show 0 + _ ≤ _
    simp only [newGrow, alloc, if_true]
    omega)
  simp only [List.nil_append] at a1
  have hfm : s1.enc.fmt = s.enc.fmt := o1.fmt
  have hfm0 : (newGrow (alloc c.minApp s).1 c.minApp c.maxApp (alloc c.minApp s).2).enc.fmt = s.enc.fmt := rfl
  rw [hfm0] at a1
  have hm : ∀ j, j ≠ s.next → s1.mem j = s.mem j := by
    intro j hj
    rw [o1.other hj]
    simp [newGrow, alloc, put_ne _ _ hj]
  unfold dump
  dsimp only
  rw [e1]
  simp only [Out.bind]
  rw [size_at a1]
  dsimp only
  have hsh : ∃ s2, shrink (alloc c.minApp s).1 s1 = .ok s2 ∧ read (alloc c.minApp s).1 (text c s.enc.fmt vs).length s2 = .ok (.bytes (text c s.enc.fmt vs)) ∧
      (s2.mem s.next).live = true ∧ Only s.next s1 s2 ∧ s2.enc.buf = some s.next := by
    show ∃ s2, shrink s.next s1 = .ok s2 ∧ _
    unfold shrink
    by_cases hr : s1.enc.buf = some s.next ∧ s1.enc.realloc = true
    · rw [if_pos hr, size_at a1]
      dsimp only
      by_cases hz : (text c s.enc.fmt vs).length = 0 ∨ (text c s.enc.fmt vs).length = s1.enc.size
      · rw [if_pos hz]
        exact ⟨s1, rfl, read_at a1, a1.live, Only.refl _ _, a1.buf⟩
      · rw [if_neg hz, a1.live]
        simp only [Bool.not_true, Bool.false_eq_true, if_false]
        refine ⟨_, rfl, ?_, ?_, ⟨⟨_, rfl⟩, rfl, rfl, rfl, rfl, rfl, rfl, rfl, rfl, rfl, rfl, rfl, rfl, rfl, rfl⟩, a1.buf⟩
        · refine read_at (s := ?_) ⟨?_, ?_, ?_, ?_, ?_, ?_, ?_⟩
          · exact a1.buf
          · dsimp only [alloc]; rw [put_same]
          · dsimp only [alloc]; rw [put_same]; exact a1.data
          · dsimp only [alloc]; rw [put_same]
          · exact a1.off
          · exact a1.err
          · exact Nat.le_refl _
        · dsimp only; rw [put_same]
    · rw [if_neg hr]
      exact ⟨s1, rfl, read_at a1, a1.live, Only.refl _ _, a1.buf⟩
  obtain ⟨s2, e2, r2, l2, o2, b2⟩ := hsh
  rw [e2]
  dsimp only
  rw [r2]
  dsimp only
  have hl : (({ s2 with out := s2.out ++ [Msg.stored name (Body.bytes (text c s.enc.fmt vs))] } : St).mem (alloc c.minApp s).1).live = true := l2
  rw [free_at hl]
  refine ⟨_, rfl, ?_, ?_, ?_, ?_, ?_, ?_, ?_, ?_, ?_, ?_, ?_, b2, ?_⟩
  · dsimp only; rw [o2.out, o1.out]; rfl
  · exact o2.cur.trans o1.cur
  · exact o2.rbuf.trans o1.rbuf
  · exact o2.cbs.trans o1.cbs
  · exact o2.next.trans o1.next
  · exact o2.disp.trans o1.disp
  · exact o2.upd.trans o1.upd
  · exact o2.ref.trans o1.ref
  · exact o2.pkt.trans o1.pkt
  · exact o2.acc.trans o1.acc
  · exact o2.fmt.trans o1.fmt
  · intro j hj
    dsimp only [alloc]
    rw [put_ne _ _ hj, o2.other hj, hm j hj]

theorem update_ok {c uri vs s} (hf : (text c s.enc.fmt vs).length ≤ c.block) :
    ∃ s', run c (Simple.update uri vs).ops s = .ok s' ∧ s'.out = s.out ++ (Simple.update uri vs).msgs c s.enc.fmt ∧
      s'.cur = s.cur ∧ s'.rbuf = s.rbuf ∧ s'.cbs = s.cbs ∧ s'.next = s.next + 1 ∧ s'.ref = s.ref ∧
      s'.enc.fmt = s.enc.fmt ∧ s'.enc.buf = some s.next ∧ ∀ j, j ≠ s.next → s'.mem j = s.mem j := by
  have h0 : At (updInit c uri s) s.next [] := by
    obtain ⟨a, b, d, e, f, g, h⟩ := (alloc_at (c := 0) (n := c.block) (s := s)).1
    exact ⟨a, b, d, e, f, g, h⟩
  obtain ⟨s1, e1, a1, o1⟩ := encodes_at (c := c) (vs := vs) h0 (by
    show 0 + _ ≤ _
    simp only [updInit, newFixed, alloc, Bool.false_eq_true, if_false]
    omega)
  simp only [List.nil_append] at a1
  have hfm0 : (updInit c uri s).enc.fmt = s.enc.fmt := rfl
  rw [hfm0] at a1
  have hfm : s1.enc.fmt = s.enc.fmt := o1.fmt
  have hm : ∀ j, j ≠ s.next → s1.mem j = s.mem j := by
    intro j hj
    rw [o1.other hj]
    simp [updInit, newFixed, alloc, put_ne _ _ hj]
  have hrun : run c (Simple.update uri vs).ops s = updDo s1 := by
    simp only [Simple.ops, List.cons_append, List.nil_append, run, step, Out.bind]
    rw [run_append, run_encodes, e1]
    simp only [Out.bind, run, step]
    cases updDo s1 <;> rfl
  rw [hrun]
  unfold updDo
  rw [size_at a1]
  have hu : s1.upd = some s.next := o1.upd
  have hp : s1.pkt.uri = uri := by rw [o1.pkt]; rfl
  by_cases hx' : text c s.enc.fmt vs = []
  · have hx : (text c s.enc.fmt vs).length = 0 := by rw [hx']; rfl
    dsimp only
    rw [if_pos hx]
    try dsimp only
    refine ⟨_, rfl, ?_, o1.cur, o1.rbuf, o1.cbs, o1.next, o1.ref, hfm, a1.buf, hm⟩
    simp only [Simple.msgs, hx', if_true, List.append_nil]
    exact o1.out
  · have hx : ¬ (text c s.enc.fmt vs).length = 0 := by intro e; exact hx' (List.length_eq_zero_iff.mp e)
    dsimp only
    rw [if_neg hx]
    rw [hu]
    dsimp only
    rw [read_at a1]
    simp only [Out.bind]
    refine ⟨_, rfl, ?_, o1.cur, o1.rbuf, o1.cbs, o1.next, o1.ref, hfm, a1.buf, hm⟩
    simp only [Simple.msgs, if_neg hx']
    rw [hp, hfm, named_eq, o1.out]
    rfl

theorem get_ok {c r s} (hr : r.m = .get) (hg : s.rbuf = none) :
    ∃ s', run c (Simple.get r).ops s = .ok s' ∧ s'.out = s.out ++ (Simple.get r).msgs c s.enc.fmt ∧
      s'.cur = s.cur ∧ s'.rbuf = none ∧ s'.next = s.next + 1 ∧
      s'.enc.fmt = s.enc.fmt ∧ s'.enc.buf = some s.next ∧ (∀ j, j ≠ s.next → s'.mem j = s.mem j) ∧
      ∀ id i, (s'.cbs id).rbuf = some i → (s.cbs id).rbuf = some i := by
  simp only [Simple.ops, run, step, Out.bind]
  have e : dispatch c true (prepare c r s) = .ok { prepare c r s with disp := none, out := s.out ++ (Simple.get r).msgs c s.enc.fmt } := by
    simp only [prepare, hr, Method.body, Bool.false_eq_true, if_false, dispatch, newFixed, alloc, put_same, payload, size, Out.bind,
      Bool.not_true, if_true, cleanup, hg, Simple.msgs, named_eq, Bool.or_false]
  rw [e]
  refine ⟨_, rfl, rfl, ?_, ?_, ?_, ?_, ?_, ?_, ?_⟩
  all_goals simp only [prepare, hr, Method.body, Bool.false_eq_true, if_false, newFixed, alloc]
  · exact hg
  · intro j hj; rw [put_ne _ _ hj]
  · intro id i h
    by_cases hi : id = s.ncb
    · rw [hi, put_same] at h; cases h
    · rw [put_ne _ _ hi] at h; exact h

theorem post_ok {c r vs s} (hr : r.m ≠ .get) (hf : (text c s.enc.fmt vs).length ≤ c.maxApp) :
    ∃ s', run c (Simple.post r vs).ops s = .ok s' ∧ s'.out = s.out ++ (Simple.post r vs).msgs c s.enc.fmt ∧
      s'.cur = s.cur ∧ s'.rbuf = none ∧ s'.next = s.next + 2 ∧
      s'.enc.fmt = s.enc.fmt ∧ s'.enc.buf = some (s.next + 1) ∧ (∀ j, j < s.next → s'.mem j = s.mem j) ∧
      ∀ id i, (s'.cbs id).rbuf = some i → (s.cbs id).rbuf = some i ∨ i = s.next + 1 := by
  have hb : r.m.body = true := by cases h : r.m <;> simp_all [Method.body]
  have h0 : At (prepare c r s) (s.next + 1) [] := by
    refine ⟨?_, ?_, ?_, ?_, ?_, ?_, ?_⟩ <;>
      simp [prepare, hb, newGrow, newFixed, alloc, put_same]
  have hfm0 : (prepare c r s).enc.fmt = s.enc.fmt := by simp [prepare, hb, newGrow, newFixed, alloc]
  have hre : (prepare c r s).enc.realloc = true := by simp [prepare, hb, newGrow, newFixed, alloc]
  have hma : (prepare c r s).enc.max = c.maxApp := by simp [prepare, hb, newGrow, newFixed, alloc]
  obtain ⟨s1, e1, a1, o1⟩ := encodes_at (c := c) (vs := vs) h0 (by
    rw [hre, hma, hfm0]
    simpa using hf)
  simp only [List.nil_append] at a1
  rw [hfm0] at a1
  have hfm : s1.enc.fmt = s.enc.fmt := o1.fmt.trans hfm0
  have hm : ∀ j, j < s.next → s1.mem j = s.mem j := by
    intro j hj
    rw [o1.other (by omega)]
    simp only [prepare, hb, if_true, newGrow, newFixed, alloc]
    rw [put_ne _ _ (by omega), put_ne _ _ (by omega)]
  have hrun : run c (Simple.post r vs).ops s = dispatch c true s1 := by
    simp only [Simple.ops, List.cons_append, List.nil_append, run, step, Out.bind]
    rw [run_append, run_encodes, e1]
    simp only [Out.bind, run, step]
    cases dispatch c true s1 <;> rfl
  have hd : s1.disp = some s.ncb := by rw [o1.disp]; simp [prepare, hb, newGrow, newFixed, alloc]
  have hcb : s1.cbs s.ncb = ⟨true, r, some (s.next + 1)⟩ := by
    rw [o1.cbs]
    simp [prepare, hb, newGrow, newFixed, alloc, put_same]
  have hrb : s1.rbuf = some (s.next + 1) := by rw [o1.rbuf]; simp [prepare, hb, newGrow, newFixed, alloc]
  have href : s1.ref (s.next + 1) = true := by rw [o1.ref]; simp [prepare, hb, newGrow, newFixed, alloc, put_same]
  have hpk : s1.pkt = r := by rw [o1.pkt]; rfl
  have hac : s1.acc = named s.enc.fmt := by
    rw [o1.acc]; simp [prepare, hb, newGrow, newFixed, alloc, named_eq]
  have hou : s1.out = s.out := by rw [o1.out]; simp [prepare, hb, newGrow, newFixed, alloc]
  have hcu : s1.cur = s.cur := by rw [o1.cur]; simp [prepare, hb, newGrow, newFixed, alloc]
  have hne : s1.next = s.next + 2 := by rw [o1.next]; simp [prepare, hb, newGrow, newFixed, alloc]
  have hcs : ∀ id i, (s1.cbs id).rbuf = some i → (s.cbs id).rbuf = some i ∨ i = s.next + 1 := by
    intro id i h
    by_cases hi : id = s.ncb
    · rw [hi, hcb] at h
      simp at h
      exact .inr h.symm
    · left
      rw [o1.cbs] at h
      simp only [prepare, hb, if_true, newGrow, newFixed, alloc, put_put, put_ne _ _ hi] at h
      exact h
  rw [hrun]
  unfold dispatch
  rw [hd]
  dsimp only
  rw [hcb]
  simp only [Bool.not_true, Bool.false_eq_true, if_false, if_true]
  unfold payload
  rw [size_at a1]
  have fin : ∀ (s2 : St), s2.rbuf = some (s.next + 1) → (s2.mem (s.next + 1)).live = true →
      ∃ s3, cleanup s2 = .ok s3 ∧ s3.out = s2.out ∧ s3.cur = s2.cur ∧ s3.rbuf = none ∧ s3.next = s2.next ∧ s3.enc = s2.enc ∧ s3.cbs = s2.cbs ∧
        ∀ j, j < s.next → s3.mem j = s2.mem j := by
    intro s2 h1 h2
    unfold cleanup
    rw [h1]
    dsimp only
    rw [h2]
    simp only [Bool.not_true, Bool.false_eq_true, if_false]
    by_cases h3 : s2.ref (s.next + 1) = true
    · rw [if_pos h3]
      exact ⟨_, rfl, rfl, rfl, rfl, rfl, rfl, rfl, fun _ _ => rfl⟩
    · rw [if_neg h3, free_at h2]
      refine ⟨_, rfl, rfl, rfl, rfl, rfl, rfl, rfl, ?_⟩
      intro j hj
      dsimp only
      rw [put_ne _ _ (by omega)]
  by_cases hx' : text c s.enc.fmt vs = []
  · have hx : (text c s.enc.fmt vs).length = 0 := by rw [hx']; rfl
    dsimp only
    rw [if_pos hx]
    simp only [Out.bind]
    obtain ⟨s3, e3, f1, f2, f3, f4, f5, f6, f7⟩ := fin { s1 with out := s1.out ++ [Msg.request s1.pkt.m (s1.cbs s.ncb).req.ep s1.pkt.uri (s1.pkt.con || false) s1.acc none] } hrb a1.live
    refine ⟨s3, e3, ?_, f2.trans hcu, f3, f4.trans hne, ?_, ?_, ?_, ?_⟩
    · rw [f1]
      dsimp only
      rw [hou, hpk, hac, hcb]
      simp [Simple.msgs, hx', carried]
    · rw [f5]; exact hfm
    · rw [f5]; exact a1.buf
    · intro j hj; rw [f7 j hj]; exact hm j hj
    · rw [f6]; exact hcs
  · have hx : ¬ (text c s.enc.fmt vs).length = 0 := by intro e; exact hx' (List.length_eq_zero_iff.mp e)
    dsimp only
    rw [if_neg hx]
    rw [hb, hrb]
    simp only [if_true]
    rw [read_at a1]
    simp only [Out.bind]
    by_cases ht : (!r.tcp && decide (c.block < (text c s.enc.fmt vs).length)) = true
    · rw [if_pos ht]
      dsimp only
      obtain ⟨s3, e3, f1, f2, f3, f4, f5, f6, f7⟩ := fin { s1 with out := s1.out ++ [Msg.request s1.pkt.m (s1.cbs s.ncb).req.ep s1.pkt.uri (s1.pkt.con || true) s1.acc (some (Body.bytes (text c s.enc.fmt vs), cfOf s1.enc.fmt))] } hrb a1.live
      refine ⟨s3, e3, ?_, f2.trans hcu, f3, f4.trans hne, ?_, ?_, ?_, ?_⟩
      · rw [f1]
        dsimp only
        rw [hou, hpk, hac, hcb, hfm]
        simp only [Simple.msgs, hx', carried, if_false, ht, named_eq]
      · rw [f5]; exact hfm
      · rw [f5]; exact a1.buf
      · intro j hj; rw [f7 j hj]; exact hm j hj
      · rw [f6]; exact hcs
    · rw [if_neg ht]
      dsimp only
      obtain ⟨s3, e3, f1, f2, f3, f4, f5, f6, f7⟩ := fin { s1 with rbuf := some (s.next + 1), ref := put s1.ref (s.next + 1) false, out := s1.out ++ [Msg.request s1.pkt.m (s1.cbs s.ncb).req.ep s1.pkt.uri (s1.pkt.con || false) s1.acc (some (Body.bytes (text c s.enc.fmt vs), cfOf s1.enc.fmt))] } rfl a1.live
      refine ⟨s3, e3, ?_, f2.trans hcu, f3, f4.trans hne, ?_, ?_, ?_, ?_⟩
      · rw [f1]
        dsimp only
        rw [hou, hpk, hac, hcb, hfm]
        have ht' : (!r.tcp && decide (c.block < (text c s.enc.fmt vs).length)) = false := by
          cases h : (!r.tcp && decide (c.block < (text c s.enc.fmt vs).length)) with
          | true => exact absurd h ht
          | false => rfl
        simp only [Simple.msgs, hx', carried, if_false, ht', named_eq]
      · rw [f5]; exact hfm
      · rw [f5]; exact a1.buf
      · intro j hj; rw [f7 j hj]; exact hm j hj
      · rw [f6]; exact hcs

/-- Callbacks are freed without harm to anything else. -/
theorem close_ok {ep} : ∀ (n : Nat) (s : St), ∃ s', closeCbs ep n s = .ok s' ∧ s'.out = s.out ∧ s'.cur = s.cur ∧ s'.rbuf = s.rbuf ∧ s'.next = s.next ∧
    s'.enc = s.enc ∧ (∀ id, (s'.cbs id).rbuf = (s.cbs id).rbuf) ∧
    ∀ j, (∀ id, (s.cbs id).rbuf ≠ some j) → s'.mem j = s.mem j
  | 0, s => ⟨s, rfl, rfl, rfl, rfl, rfl, rfl, fun _ => rfl, fun _ _ => rfl⟩
  | n + 1, s => by
    obtain ⟨s1, e1, h1, h2, h3, h4, h5, h6, h7⟩ := close_ok (ep := ep) n s
    simp only [closeCbs, e1, Out.bind]
    by_cases hl : (s1.cbs n).live = true ∧ (s1.cbs n).req.ep = ep
    · rw [if_pos hl]
      unfold freeCb
      rw [hl.1]
      simp only [Bool.not_true, Bool.false_eq_true, if_false]
      have hc : ∀ id, ((put s1.cbs n { s1.cbs n with live := false }) id).rbuf = (s.cbs id).rbuf := by
        intro id
        by_cases hi : id = n
        · rw [hi, put_same]; exact h6 n
        · rw [put_ne _ _ hi]; exact h6 id
      cases hr : (s1.cbs n).rbuf with
      | none =>
        dsimp only
        exact ⟨_, rfl, h1, h2, h3, h4, h5, by simpa [hr] using hc, h7⟩
      | some i =>
        dsimp only
        by_cases hm : (s1.mem i).live = true
        · rw [if_pos hm]
          rw [free_at (by exact hm)]
          refine ⟨_, rfl, h1, h2, h3, h4, h5, by simpa [hr] using hc, ?_⟩
          intro j hj
          dsimp only
          have : j ≠ i := by
            intro e
            exact hj n (by rw [← h6 n, hr, e])
          rw [put_ne _ _ this]
          exact h7 j hj
        · rw [if_neg hm]
          exact ⟨_, rfl, h1, h2, h3, h4, h5, by simpa [hr] using hc, h7⟩
    · rw [if_neg hl]
      exact ⟨s1, rfl, h1, h2, h3, h4, h5, h6, h7⟩

theorem simple_ok {c s} (x : Simple) (hg : Good s) (hf : x.fits c s.enc.fmt) :
    ∃ s', run c x.ops s = .ok s' ∧ s'.out = s.out ++ x.msgs c s.enc.fmt ∧ Kept s s' := by
  obtain ⟨g1, g2, g3⟩ := hg
  cases x with
  | get r =>
    obtain ⟨s', e, h1, h2, h3, h4, h5, h6, h7, h8⟩ := get_ok (c := c) hf g1
    refine ⟨s', e, h1, ⟨⟨h3, ?_, ?_⟩, h2, ?_, h5, ?_⟩⟩
    · intro id i hi
      have := g2 id i (h8 id i hi)
      rw [h4, h2]
      exact ⟨by omega, this.2⟩
    · intro u hu; rw [h2] at hu; have := g3 u hu; omega
    · intro u hu; have := g3 u hu; exact h7 _ (by omega)
    · intro u hu hb; rw [h6] at hb; have := g3 u hu; simp at hb; omega
  | post r vs =>
    obtain ⟨s', e, h1, h2, h3, h4, h5, h6, h7, h8⟩ := post_ok (c := c) (vs := vs) hf.1 hf.2
    refine ⟨s', e, h1, ⟨⟨h3, ?_, ?_⟩, h2, ?_, h5, ?_⟩⟩
    · intro id i hi
      rw [h4, h2]
      rcases h8 id i hi with h | h
      · have := g2 id i h
        exact ⟨by omega, this.2⟩
      · refine ⟨by omega, ?_⟩
        intro u hu
        have := g3 u hu
        omega
    · intro u hu; rw [h2] at hu; have := g3 u hu; omega
    · intro u hu; have := g3 u hu; exact h7 _ this
    · intro u hu hb; rw [h6] at hb; have := g3 u hu; simp at hb; omega
  | update uri vs =>
    obtain ⟨s', e, h1, h2, h3, h4, h5, h6, h7, h8, h9⟩ := update_ok (c := c) (uri := uri) (vs := vs) hf
    refine ⟨s', e, h1, ⟨⟨h3.trans g1, ?_, ?_⟩, h2, ?_, h7, ?_⟩⟩
    · intro id i hi
      rw [h4] at hi
      rw [h5, h2]
      have := g2 id i hi
      exact ⟨by omega, this.2⟩
    · intro u hu; rw [h2] at hu; have := g3 u hu; omega
    · intro u hu; have := g3 u hu; exact h9 _ (by omega)
    · intro u hu hb; rw [h8] at hb; have := g3 u hu; simp at hb; omega
  | store n vs =>
    obtain ⟨s', e, h1, h2, h3, h4, h5, h6, h7, h8, h9, h10, h11, h12, h13⟩ := dump_ok (c := c) (name := n) (vs := vs) hf
    refine ⟨s', ?_, h1, ⟨⟨h3.trans g1, ?_, ?_⟩, h2, ?_, h11, ?_⟩⟩
    · simp only [Simple.ops, run, step, e, Out.bind]
    · intro id i hi
      rw [h4] at hi
      rw [h5, h2]
      have := g2 id i hi
      exact ⟨by omega, this.2⟩
    · intro u hu; rw [h2] at hu; have := g3 u hu; omega
    · intro u hu; have := g3 u hu; exact h13 _ (by omega)
    · intro u hu hb; rw [h12] at hb; have := g3 u hu; simp at hb; omega
  | close ep =>
    obtain ⟨s', e, h1, h2, h3, h4, h5, h6, h7⟩ := close_ok (ep := ep) s.ncb s
    refine ⟨s', ?_, by simpa [Simple.msgs] using h1, ⟨⟨h3.trans g1, ?_, ?_⟩, h2, ?_, by rw [h5], fun _ _ _ => h5⟩⟩
    · simp only [Simple.ops, run, step, close, e, Out.bind]
    · intro id i hi
      rw [h6] at hi
      rw [h4, h2]
      exact g2 id i hi
    · intro u hu; rw [h2] at hu; rw [h4]; exact g3 u hu
    · intro u hu
      refine h7 _ ?_
      intro id hid
      exact (g2 id _ hid).2 u hu rfl

theorem simples_ok {c} : ∀ (xs : List Simple) {s}, Good s → (∀ x ∈ xs, x.fits c s.enc.fmt) →
    ∃ s', run c (xs.flatMap Simple.ops) s = .ok s' ∧ s'.out = s.out ++ xs.flatMap (Simple.msgs c s.enc.fmt) ∧ Kept s s'
  | [], s, hg, _ => ⟨s, rfl, by simp, ⟨hg, rfl, fun _ _ => rfl, rfl, fun _ _ _ => rfl⟩⟩
  | x :: xs, s, hg, hf => by
    obtain ⟨s1, e1, o1, k1⟩ := simple_ok x hg (hf x (by simp))
    obtain ⟨s2, e2, o2, k2⟩ := simples_ok xs k1.good (by
      intro y hy; rw [k1.fmt]; exact hf y (by simp [hy]))
    refine ⟨s2, ?_, ?_, ⟨k2.good, k2.cur.trans k1.cur, ?_, k2.fmt.trans k1.fmt, ?_⟩⟩
    · rw [List.flatMap_cons, run_append, e1]; exact e2
    · rw [o2, o1, k1.fmt, List.flatMap_cons, List.append_assoc]
    · intro u hu
      rw [k2.mem u (by rw [k1.cur]; exact hu)]
      exact k1.mem u hu
    · intro u hu hb
      have h2 := k2.enc u (by rw [k1.cur]; exact hu) hb
      rw [h2]
      exact k1.enc u hu (by rw [← h2]; exact hb)

/-! ### Serving -/

/-- The length of an answer. -/
def lenOf (rq : Rq) (ok : Bool) (f : Fmt) (p : Bytes) : Nat :=
  if p = emptyObj f then 0 else if (rq.get && ok) = false ∧ p.length ≤ 2 then 0 else p.length

theorem sizeTrunc_at {s i p} (h : At s i p) : sizeTrunc s = .ok (some (if p = emptyObj s.enc.fmt then 0 else p.length)) := by
  unfold sizeTrunc
  rw [size_at h, h.buf]
  have he : (emptyObj s.enc.fmt).length = 2 := by cases s.enc.fmt <;> rfl
  by_cases h2 : p.length = 2
  · have ht : (s.mem i).data.take 2 = p := by rw [h.data, ← h2, List.take_length]
    rw [h2, if_pos rfl]
    dsimp only
    rw [h.live, if_neg (by simp), ht]
    by_cases hp : p = emptyObj s.enc.fmt
    · rw [if_pos hp, if_pos hp]
    · rw [if_neg hp, if_neg hp]
  · have hp : ¬ p = emptyObj s.enc.fmt := by intro e; rw [e] at h2; exact h2 he
    rw [if_neg (by simpa using h2), if_neg hp]

theorem send_at {s i p u ok} (h : At s i p) (hu : s.cur = some u) (hn : u.cf = none) :
    send ok s = .ok { s with cur := some { u with len := lenOf u.rq ok s.enc.fmt p, cf := some (u.rq.accept.getD .cbor), ok := ok } } := by
  unfold send
  rw [hu]
  dsimp only
  rw [sizeTrunc_at h]
  simp only [Out.bind]
  have h1 : label u = u.rq.accept.getD .cbor := by
    unfold label
    rw [hn]
    cases u.rq.accept <;> rfl
  rw [h1]
  have h2 : (if ((!(u.rq.get && ok)) && decide ((if p = emptyObj s.enc.fmt then 0 else p.length) ≤ 2)) = true then 0 else if p = emptyObj s.enc.fmt then 0 else p.length) =
      lenOf u.rq ok s.enc.fmt p := by
    unfold lenOf
    by_cases hp : p = emptyObj s.enc.fmt
    · rw [if_pos hp, if_pos hp]; split <;> rfl
    · rw [if_neg hp, if_neg hp]
      cases (u.rq.get && ok) <;> by_cases h3 : p.length ≤ 2 <;> simp [h3]
  rw [h2]

theorem answer_len {rq ok f p} :
    answer rq ok f p = if lenOf rq ok f p = 0 then none else some (.bytes p, rq.accept.getD .cbor) := by
  have he : nothing f = emptyObj f := by cases f <;> rfl
  unfold answer lenOf
  rw [he]
  by_cases hp : p = emptyObj f
  · rw [if_pos (Or.inr hp), if_pos hp]; rfl
  · rw [if_neg hp]
    by_cases h0 : p = []
    · rw [if_pos (Or.inl h0)]
      subst h0
      simp
    · rw [if_neg (by simp [hp, h0])]
      by_cases h1 : (rq.get && ok) = false ∧ p.length ≤ 2
      · rw [if_pos h1, if_pos h1]; rfl
      · rw [if_neg h1, if_neg h1, if_neg (by intro e; exact h0 (List.length_eq_zero_iff.mp e))]

theorem lenOf_le {rq ok f p} : lenOf rq ok f p = 0 ∨ lenOf rq ok f p = p.length := by
  unfold lenOf
  split
  · exact .inl rfl
  · split
    · exact .inl rfl
    · exact .inr rfl

/-- The end of a handler whose answer is the payload `p` in the memory of the response state. -/
theorem finish_ok {s u p} (hu : s.cur = some u) (hl : (s.mem u.buf).live = true) (hd : (s.mem u.buf).data = p)
    (hz : p.length ≤ (s.mem u.buf).size) (hn : u.len = 0 ∨ u.len = p.length)
    (he : s.enc.buf = some u.buf → At s u.buf p) :
    ∃ s', finish s = .ok s' ∧ s'.out = s.out ++ [.response u.rq.id u.ok (if u.len = 0 then none else some (.bytes p, u.cf.getD .cbor))] ∧
      s'.cur = none ∧ s'.rbuf = s.rbuf ∧ s'.next = s.next ∧ s'.cbs = s.cbs ∧ s'.enc.fmt = s.enc.fmt := by
  have hsh : ∃ s2, shrink u.buf s = .ok s2 ∧ Only u.buf s s2 ∧ (s2.mem u.buf).live = true ∧ (s2.mem u.buf).data = p ∧ p.length ≤ (s2.mem u.buf).size := by
    unfold shrink
    by_cases hb : s.enc.buf = some u.buf ∧ s.enc.realloc = true
    · have ha := he hb.1
      rw [if_pos hb, size_at ha]
      dsimp only
      by_cases hq : p.length = 0 ∨ p.length = s.enc.size
      · rw [if_pos hq]
        exact ⟨s, rfl, Only.refl _ _, hl, hd, hz⟩
      · rw [if_neg hq, hl]
        simp only [Bool.not_true, Bool.false_eq_true, if_false]
        refine ⟨_, rfl, ⟨⟨_, rfl⟩, rfl, rfl, rfl, rfl, rfl, rfl, rfl, rfl, rfl, rfl, rfl, rfl, rfl, rfl⟩, ?_, ?_, ?_⟩
        · dsimp only; rw [put_same]
        · dsimp only; rw [put_same]; exact hd
        · dsimp only; rw [put_same]; exact Nat.le_refl _
    · rw [if_neg hb]
      exact ⟨s, rfl, Only.refl _ _, hl, hd, hz⟩
  obtain ⟨s2, e2, o2, l2, d2, z2⟩ := hsh
  unfold finish
  rw [hu]
  dsimp only
  rw [e2]
  simp only [Out.bind]
  by_cases h0 : u.len = 0
  · rw [if_pos h0, if_pos h0, free_at l2]
    dsimp only
    refine ⟨_, rfl, ?_, rfl, o2.rbuf, o2.next, o2.cbs, o2.fmt⟩
    dsimp only
    rw [o2.out]
  · rw [if_neg h0, if_neg h0]
    have hlen : u.len = p.length := hn.resolve_left h0
    have hr : read u.buf u.len s2 = .ok (.bytes p) := by
      unfold read
      rw [l2, if_neg (by simp), if_neg (by rw [hlen]; omega), if_pos (by rw [hlen, d2]; omega), hlen, d2, List.take_length]
    rw [hr]
    dsimp only
    rw [free_at l2]
    dsimp only
    refine ⟨_, rfl, ?_, rfl, o2.rbuf, o2.next, o2.cbs, o2.fmt⟩
    dsimp only
    rw [o2.out]

theorem serve_ok {c s rq vs ok after} (hg : Good s) (hc : s.cur = none)
    (hf : (Job.serve rq vs ok after).fits c s.enc.fmt) :
    ∃ s', run c (Job.serve rq vs ok after).ops s = .ok s' ∧ s'.out = s.out ++ (Job.serve rq vs ok after).msgs c s.enc.fmt ∧
      Good s' ∧ s'.cur = none ∧ s'.enc.fmt = (Job.serve rq vs ok after).fmt s.enc.fmt := by
  obtain ⟨g1, g2, g3⟩ := hg
  obtain ⟨hf1, hf2⟩ := hf
  -- the beginning
  have hbeg : ∃ s0, begin_ c rq s = .ok s0 ∧ At s0 s.next [] ∧ s0.enc.fmt = asked s.enc.fmt rq.accept ∧ s0.enc.realloc = true ∧ s0.enc.max = c.maxApp ∧
      s0.cur = some ⟨rq, s.next, 0, none, true⟩ ∧ s0.out = s.out ∧ s0.rbuf = none ∧ s0.cbs = s.cbs ∧ s0.next = s.next + 1 := by
    unfold begin_
    rw [hc]
    dsimp only
    refine ⟨_, rfl, ?_⟩
    cases ha : rq.accept with
    | none => refine ⟨⟨rfl, ?_, ?_, ?_, rfl, rfl, by simp⟩, ?_⟩ <;> simp [setAccept, newGrow, alloc, put_same, asked, g1]
    | some a =>
      cases a with
      | cbor => refine ⟨⟨rfl, ?_, ?_, ?_, rfl, rfl, by simp⟩, ?_⟩ <;> simp [setAccept, newGrow, alloc, put_same, asked, g1]
      | json => refine ⟨⟨rfl, ?_, ?_, ?_, rfl, rfl, by simp⟩, ?_⟩ <;> simp [setAccept, newGrow, alloc, put_same, asked, g1]
      | other n => refine ⟨⟨rfl, ?_, ?_, ?_, rfl, rfl, by simp⟩, ?_⟩ <;> simp [setAccept, newGrow, alloc, put_same, asked, g1]
  obtain ⟨s0, e0, a0, b1, b2, b3, b4, b5, b6, b7, b8⟩ := hbeg
  -- the payload
  obtain ⟨s1, e1, a1, o1⟩ := encodes_at (c := c) (vs := vs) a0 (by
    rw [b2, b3, b1]
    simpa using hf1)
  simp only [List.nil_append] at a1
  rw [b1] at a1
  have hfm : s1.enc.fmt = asked s.enc.fmt rq.accept := o1.fmt.trans b1
  -- the answer
  have e2 := send_at (ok := ok) a1 (o1.cur.trans b4) rfl
  rw [hfm] at e2
  dsimp only at e2
  generalize hT : text c (asked s.enc.fmt rq.accept) vs = T at a1 e2
  generalize hs2 : ({ s1 with cur := some ({ rq := rq, buf := s.next, len := lenOf rq ok (asked s.enc.fmt rq.accept) T, cf := some (rq.accept.getD .cbor), ok := ok } : Cur) } : St) = s2 at e2
  have a2 : At s2 s.next T := by
    obtain ⟨x1, x2, x3, x4, x5, x6, x7⟩ := a1
    rw [← hs2]
    exact ⟨x1, x2, x3, x4, x5, x6, x7⟩
  have hcur2 : s2.cur = some ⟨rq, s.next, lenOf rq ok (asked s.enc.fmt rq.accept) T, some (rq.accept.getD .cbor), ok⟩ := by rw [← hs2]
  have hfm2 : s2.enc.fmt = asked s.enc.fmt rq.accept := by rw [← hs2]; exact hfm
  have hgood2 : Good s2 := by
    rw [← hs2]
    refine ⟨o1.rbuf.trans b6, ?_, ?_⟩
    · intro id i hi
      have hi' : (s.cbs id).rbuf = some i := by rw [← b7, ← o1.cbs]; exact hi
      have := g2 id i hi'
      have hn : s1.next = s.next + 1 := o1.next.trans b8
      refine ⟨by dsimp only; omega, ?_⟩
      intro u hu
      simp at hu
      rw [← hu]
      dsimp only
      omega
    · intro u hu
      simp at hu
      rw [← hu]
      have hn : s1.next = s.next + 1 := o1.next.trans b8
      dsimp only
      omega
  have hout2 : s2.out = s.out := by rw [← hs2]; exact o1.out.trans b5
  -- afterwards
  obtain ⟨s3, e3, o3, k3⟩ := simples_ok after hgood2 (by rw [hfm2]; exact hf2)
  have hm3 := k3.mem _ hcur2
  dsimp only at hm3
  have hcur3 := k3.cur.trans hcur2
  obtain ⟨s4, e4, o4, c4, r4, n4, cb4, f4⟩ := finish_ok (p := T) hcur3 (by dsimp only; rw [hm3]; exact a2.live) (by dsimp only; rw [hm3]; exact a2.data)
    (by dsimp only; rw [hm3, a2.size]; exact a2.room) lenOf_le (by
      intro hb
      have he := k3.enc _ hcur2 hb
      obtain ⟨x1, x2, x3, x4, x5, x6, x7⟩ := a2
      exact ⟨hb, by dsimp only; rw [hm3]; exact x2, by dsimp only; rw [hm3]; exact x3, by dsimp only; rw [hm3, he]; exact x4, by rw [he]; exact x5, by rw [he]; exact x6, by rw [he]; exact x7⟩)
  refine ⟨s4, ?_, ?_, ⟨r4.trans k3.good.rbuf, ?_, ?_⟩, c4, ?_⟩
  · simp only [Job.ops, List.cons_append, List.nil_append, List.append_assoc, run, step, e0, Out.bind]
    rw [run_append, run_encodes, e1]
    simp only [Out.bind, run, step, e2]
    rw [run_append, e3]
    simp only [Out.bind, run, step, e4]
  · rw [o4, o3, hout2, hfm2]
    simp only [Job.msgs, hT, answer_len, List.append_assoc, Option.getD_some]
  · intro id i hi
    rw [cb4] at hi
    have := k3.good.cbs id i hi
    rw [n4, c4]
    exact ⟨this.1, fun u hu => by cases hu⟩
  · intro u hu; rw [c4] at hu; cases hu
  · rw [f4, k3.fmt, hfm2]; rfl

theorem jobs_ok {c} : ∀ (js : List Job) {s}, Good s → s.cur = none → AllFit c s.enc.fmt js →
    ∃ s', run c (js.flatMap Job.ops) s = .ok s' ∧ s'.out = s.out ++ msgs c s.enc.fmt js ∧ Good s' ∧ s'.cur = none
  | [], s, hg, hc, _ => ⟨s, rfl, by simp [msgs], hg, hc⟩
  | j :: js, s, hg, hc, hf => by
    obtain ⟨hf1, hf2⟩ := hf
    have h1 : ∃ s1, run c j.ops s = .ok s1 ∧ s1.out = s.out ++ j.msgs c s.enc.fmt ∧ Good s1 ∧ s1.cur = none ∧ s1.enc.fmt = j.fmt s.enc.fmt := by
      cases j with
      | simple x =>
        obtain ⟨s1, e1, o1, k1⟩ := simple_ok x hg hf1
        exact ⟨s1, e1, o1, k1.good, k1.cur.trans hc, k1.fmt⟩
      | serve rq vs ok after => exact serve_ok hg hc hf1
    obtain ⟨s1, e1, o1, g1, c1, f1⟩ := h1
    obtain ⟨s2, e2, o2, g2, c2⟩ := jobs_ok js g1 c1 (by rw [f1]; exact hf2)
    refine ⟨s2, ?_, ?_, g2, c2⟩
    · rw [List.flatMap_cons, run_append, e1]; exact e2
    · rw [o2, o1, f1, List.append_assoc]; rfl

end Verif.Encode
