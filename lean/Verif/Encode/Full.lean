import Verif.Encode.Lemmas

/-! Payloads that do not fit. -/

namespace Verif.Encode

theorem encodes_err {c} : ∀ {vs s}, s.enc.err = true → encodes c vs s = .ok s
  | [], s, _ => rfl
  | v :: vs, s, h => by
    have : encode c v s = .ok s := by unfold encode; rw [h]; rfl
    simp only [encodes, this, Out.bind]
    exact encodes_err h

theorem encode_full {c v s i p} (h : At s i p) (hr : s.enc.realloc = true) (hz : s.enc.size ≤ s.enc.max)
    (hf : s.enc.max < p.length + (c.enc s.enc.fmt v).length) :
    encode c v s = .ok { s with enc := { s.enc with err := true } } := by
  unfold encode
  dsimp only
  rw [h.err]
  have h1 : ¬ s.enc.off + (c.enc s.enc.fmt v).length ≤ s.enc.size := by rw [h.off]; omega
  have h2 : ¬ s.enc.off + (c.enc s.enc.fmt v).length ≤ s.enc.max := by rw [h.off]; omega
  simp only [Bool.false_eq_true, if_false, if_neg h1, h2, decide_false, Bool.and_false]

theorem grown_max {size max needed} : grown size max needed ≤ max ∨ grown size max needed = size + (needed + (size + needed)) := by
  unfold grown; split
  · exact .inr rfl
  · exact .inl (Nat.le_refl _)

theorem encode_size {c v s i p s'} (h : At s i p) (hz : s.enc.size ≤ s.enc.max) (e : encode c v s = .ok s') : s'.enc.size ≤ s'.enc.max := by
  unfold encode at e
  dsimp only at e
  rw [h.err, h.buf] at e
  simp only [Bool.false_eq_true, if_false, h.live, Bool.not_true] at e
  split at e
  · injection e with e; rw [← e]; exact hz
  · split at e
    · next hg =>
      injection e with e; rw [← e]
      dsimp only
      simp at hg
      unfold grown
      split
      · omega
      · exact Nat.le_refl _
    · injection e with e; rw [← e]; exact hz

theorem encodes_full {c} : ∀ {vs s i p}, At s i p → s.enc.realloc = true → s.enc.size ≤ s.enc.max →
    s.enc.max < p.length + (text c s.enc.fmt vs).length → p.length ≤ s.enc.max →
    ∃ s', encodes c vs s = .ok s' ∧ s'.enc.err = true ∧ s'.enc.buf = some i ∧ (s'.mem i).live = true ∧ Only i s s'
  | [], s, i, p, h, _, _, hf, hp => by simp [text] at hf; omega
  | v :: vs, s, i, p, h, hr, hz, hf, hp => by
    simp only [text, List.length_append] at hf
    by_cases h1 : p.length + (c.enc s.enc.fmt v).length ≤ s.enc.max
    · obtain ⟨s1, e1, a1, o1, _⟩ := encode_at (c := c) (v := v) h (by rw [hr, if_pos rfl]; exact h1)
      obtain ⟨s2, e2, b1, b2, b3, b4⟩ := encodes_full (c := c) (vs := vs) a1 (o1.realloc.trans hr) (encode_size h hz e1)
        (by rw [o1.max, o1.fmt, List.length_append]; omega) (by rw [o1.max, List.length_append]; exact h1)
      exact ⟨s2, by simp only [encodes, e1, Out.bind]; exact e2, b1, b2, b3, o1.trans b4⟩
    · have e := encode_full (c := c) (v := v) h hr hz (by omega)
      refine ⟨({ s with enc := { s.enc with err := true } } : St), ?_, rfl, h.buf, h.live, ⟨⟨s.mem i, (put_self _ _).symm⟩, rfl, rfl, rfl, rfl, rfl, rfl, rfl, rfl, rfl, rfl, rfl, rfl, rfl, rfl⟩⟩
      simp only [encodes, e, Out.bind]
      exact encodes_err rfl

theorem dump_full {c name vs s} (hc : c.minApp ≤ c.maxApp) (hf : c.maxApp < (text c s.enc.fmt vs).length) :
    ∃ s', dump c name vs s = .ok s' ∧ s'.out = s.out := by
  have h0 := (alloc_at (c := c.maxApp) (n := c.minApp) (s := s)).2
  obtain ⟨s1, e1, h1, h2, h3, o1⟩ := encodes_full (c := c) (vs := vs) h0 rfl hc (by
    show c.maxApp < 0 + _
    simp only [newGrow, alloc]
    omega) (Nat.zero_le _)
  unfold dump
  dsimp only
  rw [e1]
  simp only [Out.bind, size, h1, if_true]
  rw [free_at (by exact h3)]
  exact ⟨_, rfl, by dsimp only; rw [o1.out]; rfl⟩

theorem post_full {c r vs s} (hr : r.m ≠ .get) (hc : c.minApp ≤ c.maxApp) (hf : c.maxApp < (text c s.enc.fmt vs).length) :
    ∃ s', run c (Simple.post r vs).ops s = .ok s' ∧
      s'.out = s.out ++ [.request r.m r.ep r.uri r.con (named s.enc.fmt) none] := by
  have hb : r.m.body = true := by cases h : r.m <;> simp_all [Method.body]
  have h0 : At (prepare c r s) (s.next + 1) [] := by
    refine ⟨?_, ?_, ?_, ?_, ?_, ?_, ?_⟩ <;>
      simp [prepare, hb, newGrow, newFixed, alloc, put_same]
  have hfm0 : (prepare c r s).enc.fmt = s.enc.fmt := by simp [prepare, hb, newGrow, newFixed, alloc]
  have hre : (prepare c r s).enc.realloc = true := by simp [prepare, hb, newGrow, newFixed, alloc]
  have hma : (prepare c r s).enc.max = c.maxApp := by simp [prepare, hb, newGrow, newFixed, alloc]
  have hsz : (prepare c r s).enc.size = c.minApp := by simp [prepare, hb, newGrow, newFixed, alloc]
  obtain ⟨s1, e1, h1, h2, h3, o1⟩ := encodes_full (c := c) (vs := vs) h0 hre (by rw [hsz, hma]; exact hc)
    (by rw [hma, hfm0]; simpa using hf) (by simp)
  have hrun : run c (Simple.post r vs).ops s = dispatch c true s1 := by
    simp only [Simple.ops, List.cons_append, List.nil_append, run, step, Out.bind]
    rw [run_append, run_encodes, e1]
    simp only [Out.bind, run, step]
    cases dispatch c true s1 <;> rfl
  have hd : s1.disp = some s.ncb := by rw [o1.disp]; simp [prepare, hb, newGrow, newFixed, alloc]
  have hcb : s1.cbs s.ncb = ⟨true, r, some (s.next + 1)⟩ := by
    rw [o1.cbs]
    simp [prepare, hb, newGrow, newFixed, alloc, put_same]
  have hrb : s1.rbuf = some (s.next + 1) := by rw [o1.rbuf]; simp [prepare, hb, newGrow, newFixed, alloc]
  have href : s1.ref (s.next + 1) = true := by rw [o1.ref]; simp [prepare, hb, newGrow, newFixed, alloc, put_same]
  have hpk : s1.pkt = r := by rw [o1.pkt]; rfl
  have hac : s1.acc = named s.enc.fmt := by
    rw [o1.acc]; simp [prepare, hb, newGrow, newFixed, alloc, named_eq]
  have hou : s1.out = s.out := by rw [o1.out]; simp [prepare, hb, newGrow, newFixed, alloc]
  rw [hrun]
  unfold dispatch payload
  rw [hd]
  dsimp only
  rw [hcb]
  simp only [Bool.not_true, Bool.false_eq_true, if_false, if_true, size, h1, Out.bind, cleanup, hrb, h3, href]
  refine ⟨_, rfl, ?_⟩
  dsimp only
  rw [hou, hpk, hac, hcb]
  simp

end Verif.Encode
