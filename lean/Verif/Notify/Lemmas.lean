import Verif.Notify.Spec

namespace Verif.Notify

/-- An observer without its counter. -/
def er (o : Obs) : Obs := { o with cnt := 0 }

/-- The same observers but for their counters. -/
def sameObs (s t : St) : Prop := t.obs.map er = s.obs.map er

theorem sameObs_refl (s : St) : sameObs s s := rfl

theorem sameObs_trans {a b c : St} (h1 : sameObs a b) (h2 : sameObs b c) : sameObs a c :=
  Eq.trans h2 h1

theorem er_bump (l : List Obs) (i : Nat) :
    (l.map fun x => if x.id == i then { x with cnt := inc x.cnt } else x).map er = l.map er := by
  rw [List.map_map]
  apply List.map_congr_left
  intro x _
  simp only [Function.comp]
  split <;> rfl

theorem filter_er {l m : List Obs} (h : m.map er = l.map er) {p : Obs → Bool} (hp : ∀ o, p (er o) = p o) :
    (m.filter p).map er = (l.filter p).map er := by
  have h1 : ∀ k : List Obs, (k.filter p).map er = (k.map er).filter p := by
    intro k
    rw [List.filter_map]
    congr 1
    apply List.filter_congr
    intro x _
    simp [Function.comp, hp]
  rw [h1, h1, h]

theorem nobs_same {s t : St} (h : sameObs s t) (r : Nat) : nobs t r = nobs s r := by
  unfold nobs
  have := filter_er h (p := fun o => o.res == r) (fun o => rfl)
  have := congrArg List.length this
  simpa using this

/-! ### One notification -/

theorem finish_spec (s : St) (o : Obs) (code : Nat) (con : Bool) (body : Option Nat) (first : Bool) :
    sameObs s (finish s o code con body first).1 ∧ (finish s o code con body first).1.xfers = s.xfers ∧
    (finish s o code con body first).1.bufs = s.bufs ∧ (finish s o code con body first).1.mid = s.mid + 1 ∧
    (if s.mem = 0 then
      (finish s o code con body first).1.outs = s.outs ∧ (finish s o code con body first).1.mem = 0 ∧
        (finish s o code con body first).2 = .fail
     else
      (finish s o code con body first).1.outs = s.outs ++ [⟨o.ep, o.token, code,
        if code < 128 ∧ nobs s o.res ≠ 0 then o.cnt else 1, con, body, first, s.mid⟩] ∧
      (finish s o code con body first).1.mem = s.mem - 1 ∧
      (finish s o code con body first).2 = .sent) := by
  unfold finish sameObs
  dsimp only
  by_cases hn : code < 128 ∧ nobs s o.res ≠ 0
  · simp only [if_pos hn]
    by_cases hm : s.mem = 0
    · simp only [if_pos hm]
      refine ⟨?_, ?_, ?_, ?_, ?_, ?_, ?_⟩ <;> first | rfl | trivial | exact er_bump _ _ | exact hm
    · simp only [if_neg hm]
      refine ⟨?_, ?_, ?_, ?_, ?_, ?_, ?_⟩ <;> first | rfl | trivial | exact er_bump _ _ | exact hm
  · simp only [if_neg hn]
    by_cases hm : s.mem = 0
    · simp only [if_pos hm]
      refine ⟨?_, ?_, ?_, ?_, ?_, ?_, ?_⟩ <;> first | rfl | trivial | exact er_bump _ _ | exact hm
    · simp only [if_neg hm]
      refine ⟨?_, ?_, ?_, ?_, ?_, ?_, ?_⟩ <;> first | rfl | trivial | exact er_bump _ _ | exact hm

/-- What one call may send: at most one notification, to the observer, with its
token. -/
def oneTo (o : Obs) (s t : St) (ret : Ret) : Prop :=
  sameObs s t ∧
  ((t.outs = s.outs ∧ ret ≠ .sent) ∨
    (∃ n, t.outs = s.outs ++ [n] ∧ ret = .sent ∧ n.ep = o.ep ∧ n.token = o.token))

theorem finish_one (s : St) (o : Obs) (code : Nat) (con : Bool) (body : Option Nat) (first : Bool) :
    oneTo o s (finish s o code con body first).1 (finish s o code con body first).2 := by
  obtain ⟨h1, _, _, _, h2⟩ := finish_spec s o code con body first
  refine ⟨h1, ?_⟩
  split at h2
  · exact Or.inl ⟨h2.1, by rw [h2.2.2]; decide⟩
  · exact Or.inr ⟨_, h2.1, h2.2.2, rfl, rfl⟩

theorem sendBlocks_one (s : St) (o : Obs) (b : Buf) : oneTo o s (sendBlocks s o b).1 (sendBlocks s o b).2 := by
  unfold sendBlocks
  cases hf : s.xfers.find? (own o) with
  | some x =>
    dsimp only
    split
    · exact ⟨rfl, Or.inl ⟨rfl, fun hh => by cases hh⟩⟩
    · split
      · exact ⟨rfl, Or.inl ⟨rfl, fun hh => by cases hh⟩⟩
      · exact (finish_one _ o _ _ _ _ :)
  | none =>
    dsimp only
    split
    · exact ⟨rfl, Or.inl ⟨rfl, fun hh => by cases hh⟩⟩
    · exact (finish_one _ o _ _ _ _ :)

theorem sendOne_one (s : St) (o : Obs) (b : Buf) (g : Bool) :
    oneTo o s (sendOne s o b g).1 (sendOne s o b g).2.2 := by
  unfold sendOne
  dsimp only
  generalize (if (o.iface == ifRevert) = true then ({ b with code := valid } : Buf) else b) = b'
  split
  · split
    · exact ⟨rfl, Or.inl ⟨rfl, fun hh => by cases hh⟩⟩
    · split
      · exact sendBlocks_one s o _
      · exact finish_one s o _ _ _ _
  · exact finish_one s o _ _ _ _

/-! ### All loops in one -/

/-- The common shape of the loops. -/
def gen (g : Bool) (P : Obs → Bool) (F : Obs → Buf → Buf × Bool) : List Obs → St → Buf → Nat → St × Buf × Nat
  | [], s, b, n => (s, b, n)
  | o :: os, s, b, n =>
    if !P o then gen g P F os s b n
    else
      let f := F o b
      if !f.2 then gen g P F os s f.1 n
      else
        let t := sendOne s o f.1 g
        if t.2.2 == .fail then (t.1, t.2.1, n) else gen g P F os t.1 t.2.1 (n + 1)

theorem iterLoop_gen (h : Nat → Nat → Ans) (r : Res) (ep : Option Nat) (prep : Bool) : ∀ (os : List Obs) (s : St) (b : Buf)
    (n : Nat), iterLoop h r ep prep os s b n =
      ((gen false (pass r ep) (fun o b => if prep then fill h (ifOf r) o.ep b else (b, true)) os s b n).1,
       (gen false (pass r ep) (fun o b => if prep then fill h (ifOf r) o.ep b else (b, true)) os s b n).2.2) := by
  intro os
  induction os with
  | nil => intro s b n; rfl
  | cons o os ih =>
    intro s b n
    unfold iterLoop gen
    dsimp only
    generalize (if prep = true then fill h (ifOf r) o.ep b else (b, true)) = f
    split
    · exact ih _ _ _
    · split
      · exact ih _ _ _
      · split
        · rfl
        · exact ih _ _ _

theorem discLoop_gen (h : Nat → Nat → Ans) (r : Res) : ∀ (os : List Obs) (s : St) (b : Buf)
    (n : Nat), discLoop h r os s b n =
      ((gen false (fun o => o.res == r.id && (o.iface &&& ifB == 0))
        (fun o b => fill h (if o.iface = 0 then r.dflt else o.iface) o.ep b) os s b n).1,
       (gen false (fun o => o.res == r.id && (o.iface &&& ifB == 0))
        (fun o b => fill h (if o.iface = 0 then r.dflt else o.iface) o.ep b) os s b n).2.2) := by
  intro os
  induction os with
  | nil => intro s b n; rfl
  | cons o os ih =>
    intro s b n
    unfold discLoop gen
    dsimp only
    generalize fill h (if o.iface = 0 then r.dflt else o.iface) o.ep b = f
    by_cases h1 : o.res = r.id
    · by_cases h2 : o.iface &&& ifB = 0
      · rw [if_neg (by simp [h1]), if_neg (by simp [h2]), if_neg (c := (!(o.res == r.id && (o.iface &&& ifB == 0))) = true) (by simp [h1, h2])]
        split
        · exact ih _ _ _
        · split
          · rfl
          · exact ih _ _ _
      · rw [if_neg (by simp [h1]), if_pos (by simp [h2]), if_pos (c := (!(o.res == r.id && (o.iface &&& ifB == 0))) = true) (by simp [h2])]
        exact ih _ _ _
    · rw [if_pos (by simp [h1]), if_pos (c := (!(o.res == r.id && (o.iface &&& ifB == 0))) = true) (by simp [h1])]
      exact ih _ _ _

theorem collLoop_gen (c : Coll) : ∀ (os : List Obs) (s : St) (b : Buf) (n : Nat),
    collLoop c os s b =
      ((gen true (collPass c) (fun _ b => (b, true)) os s b n).1,
       (gen true (collPass c) (fun _ b => (b, true)) os s b n).2.1) := by
  intro os
  induction os with
  | nil => intro s b n; rfl
  | cons o os ih =>
    intro s b n
    unfold collLoop gen
    dsimp only
    split
    · exact ih _ _ _
    · simp only [Bool.not_true, Bool.false_eq_true, if_false]
      split
      · rfl
      · exact ih _ _ _

/-- Whatever fails: one notification at most to each observer of the loop, in
order, with its own endpoint and token. -/
theorem gen_one (g : Bool) (P : Obs → Bool) (F : Obs → Buf → Buf × Bool) : ∀ (os : List Obs) (s : St) (b : Buf) (n : Nat),
    sameObs s (gen g P F os s b n).1 ∧
    ∃ ns os', (gen g P F os s b n).1.outs = s.outs ++ ns ∧ List.Sublist os' (os.filter P) ∧
      ns.map (fun x => (x.ep, x.token)) = os'.map fun o => (o.ep, o.token) := by
  intro os
  induction os with
  | nil => intro s b n; exact ⟨rfl, [], [], by simp [gen], List.Sublist.refl _, rfl⟩
  | cons o os ih =>
    intro s b n
    unfold gen
    dsimp only
    split
    · rename_i hp
      obtain ⟨h1, ns, os', h2, h3, h4⟩ := ih s b n
      refine ⟨h1, ns, os', h2, ?_, h4⟩
      rw [List.filter_cons, if_neg (by simpa using hp)]
      exact h3
    · rename_i hp
      have hp : P o = true := by simpa using hp
      rw [List.filter_cons, if_pos hp]
      split
      · obtain ⟨h1, ns, os', h2, h3, h4⟩ := ih s (F o b).1 n
        exact ⟨h1, ns, os', h2, h3.cons _, h4⟩
      · obtain ⟨a1, a2⟩ := sendOne_one s o (F o b).1 g
        split
        · rename_i hf
          have hf : (sendOne s o (F o b).1 g).2.2 = .fail := by simpa using hf
          rcases a2 with ⟨a2, _⟩ | ⟨n, _, a3, _⟩
          · exact ⟨a1, [], [], by simp [a2], List.nil_sublist _, rfl⟩
          · rw [hf] at a3; cases a3
        · obtain ⟨h1, ns, os', h2, h3, h4⟩ := ih (sendOne s o (F o b).1 g).1 (sendOne s o (F o b).1 g).2.1 (n + 1)
          refine ⟨sameObs_trans a1 h1, ?_⟩
          rcases a2 with ⟨a2, _⟩ | ⟨m, a2, _, a4, a5⟩
          · exact ⟨ns, os', by rw [h2, a2], h3.cons _, h4⟩
          · refine ⟨m :: ns, o :: os', by rw [h2, a2, List.append_assoc]; rfl, h3.cons_cons o, ?_⟩
            rw [List.map_cons, List.map_cons, h4, a4, a5]

/-! ### When nothing fails -/

theorem finish_obs {s : St} {o : Obs} {code : Nat} (con : Bool) (body : Option Nat) (first : Bool) (hc : code < 128) (hn : nobs s o.res ≠ 0) :
    (finish s o code con body first).1.obs = s.obs.map fun x => if x.id == o.id then { x with cnt := inc x.cnt } else x := by
  unfold finish
  dsimp only
  simp only [if_pos (And.intro hc hn)]
  split <;> rfl

theorem sendOne_good {s : St} {o : Obs} {b : Buf} {g : Bool} (hrev : o.iface ≠ ifRevert) (hlen : b.len ≠ 0)
    (hcode : b.code < 128) (hn : nobs s o.res ≠ 0) (hmem : s.mem ≠ 0) (hbuf : s.bufs ≠ 0)
    (hx : s.xfers.find? (own o) = none) :
    (sendOne s o b g).2 = (b, .sent) ∧ (sendOne s o b g).1.outs = s.outs ++ [noteOf o b s.mid] ∧
    (sendOne s o b g).1.mid = s.mid + 1 ∧ (sendOne s o b g).1.mem = s.mem - 1 ∧ s.bufs - 1 ≤ (sendOne s o b g).1.bufs ∧
    ((sendOne s o b g).1.xfers = s.xfers ∨ (sendOne s o b g).1.xfers = s.xfers ++ [⟨o.ep, o.res, o.iface, false⟩]) ∧
    (sendOne s o b g).1.obs = s.obs.map fun x => if x.id == o.id then { x with cnt := inc x.cnt } else x := by
  unfold sendOne noteOf
  have hr : (o.iface == ifRevert) = false := by simpa using hrev
  simp only [hr, Bool.false_eq_true, if_false, Bool.not_false, Bool.or_true, if_true]
  rw [if_neg hlen]
  split
  · rename_i hb
    unfold sendBlocks
    rw [hx]
    dsimp only
    rw [if_neg hbuf]
    obtain ⟨_, f2, f3, f4, f5⟩ := finish_spec { s with xfers := s.xfers ++ [⟨o.ep, o.res, o.iface, false⟩], bufs := s.bufs - 1 }
      o b.code true (some b.body) true
    rw [if_neg hmem] at f5
    obtain ⟨f5, f6, f7⟩ := f5
    have hn' : nobs { s with xfers := s.xfers ++ [⟨o.ep, o.res, o.iface, false⟩], bufs := s.bufs - 1 } o.res ≠ 0 := hn
    rw [if_pos ⟨hcode, hn'⟩] at f5
    exact ⟨by rw [f7], f5, f4, f6, Nat.le_of_eq f3.symm, Or.inr f2, finish_obs true (some b.body) true hcode hn'⟩
  · rename_i hb
    obtain ⟨_, f2, f3, f4, f5⟩ := finish_spec s o b.code (o.cnt % 5 == 0 && !o.tcp) (some b.body) false
    rw [if_neg hmem] at f5
    obtain ⟨f5, f6, f7⟩ := f5
    rw [if_pos ⟨hcode, hn⟩] at f5
    exact ⟨by dsimp only; rw [f7], f5, f4, f6, by dsimp only; rw [f3]; omega, Or.inl f2, finish_obs _ _ _ hcode hn⟩

/-- The loop when nothing fails. -/
theorem gen_good {g : Bool} {P : Obs → Bool} {F : Obs → Buf → Buf × Bool} {Q : Buf → Prop} {B : Obs → Buf} :
    ∀ (os : List Obs) (s : St) (b : Buf) (n : Nat),
    (∀ o ∈ os, P o = true → (∀ b, Q b → F o b = (B o, true)) ∧ Q (B o) ∧ (B o).len ≠ 0 ∧ (B o).code < 128 ∧
      o.iface ≠ ifRevert ∧ nobs s o.res ≠ 0 ∧ s.xfers.find? (own o) = none) →
    ((os.filter P).map fun o => (o.ep, o.res, o.iface)).Nodup →
    (os.filter P).length ≤ s.mem → (os.filter P).length ≤ s.bufs → Q b →
    (gen g P F os s b n).1.outs = s.outs ++ ((os.filter P).zipIdx s.mid).map (fun p => noteOf p.1 (B p.1) p.2) ∧
    (gen g P F os s b n).2.2 = n + (os.filter P).length ∧
    Q (gen g P F os s b n).2.1 ∧
    (gen g P F os s b n).1.mid = s.mid + (os.filter P).length ∧
    s.mem - (os.filter P).length ≤ (gen g P F os s b n).1.mem ∧
    s.bufs - (os.filter P).length ≤ (gen g P F os s b n).1.bufs ∧
    (∀ x ∈ (gen g P F os s b n).1.xfers, x ∈ s.xfers ∨ ∃ o ∈ os, P o = true ∧ x.res = o.res) ∧
    ((os.map (·.id)).Nodup → (gen g P F os s b n).1.obs =
      s.obs.map fun x => if (os.filter P).any (·.id == x.id) then { x with cnt := inc x.cnt } else x) := by
  intro os
  induction os with
  | nil =>
    intro s b n _ _ _ _ hQ
    refine ⟨by simp [gen], by simp [gen], hQ, by simp [gen], by simp [gen], by simp [gen], ?_, ?_⟩
    · intro x hx; exact Or.inl hx
    · intro _; simp [gen]
  | cons o os ih =>
    intro s b n hok hnd hmem hbuf hQ
    unfold gen
    dsimp only
    by_cases hp : P o = true
    · rw [if_neg (by simp [hp])]
      simp only [List.filter_cons, if_pos hp] at hnd hmem hbuf ⊢
      simp only [List.length_cons] at hmem hbuf ⊢
      obtain ⟨k1, k2, k3, k4, k5, k6, k7⟩ := hok o List.mem_cons_self hp
      rw [k1 b hQ]
      simp only [Bool.not_true, Bool.false_eq_true, if_false]
      obtain ⟨s1, s2, s3, s4, s5, s6, s7⟩ := sendOne_good (g := g) k5 k3 k4 k6 (by omega) (by omega) k7
      have hsame := (sendOne_one s o (B o) g).1
      rw [s1]
      simp only [show (Ret.sent == Ret.fail) = false from rfl, Bool.false_eq_true, if_false]
      simp only [List.map_cons, List.nodup_cons] at hnd
      obtain ⟨hno, hnd⟩ := hnd
      obtain ⟨i1, i2, i3, i4, i5, i6, i7, i8⟩ := ih (sendOne s o (B o) g).1 (B o) (n + 1)
        (by
          intro o' ho' hp'
          obtain ⟨j1, j2, j3, j4, j5, j6, j7⟩ := hok o' (List.mem_cons_of_mem _ ho') hp'
          refine ⟨j1, j2, j3, j4, j5, by rw [nobs_same hsame]; exact j6, ?_⟩
          rcases s6 with s6 | s6
          · rw [s6]; exact j7
          · rw [s6, List.find?_append, j7]
            simp only [Option.none_or, List.find?_cons, List.find?_nil]
            have : own o' ⟨o.ep, o.res, o.iface, false⟩ = false := by
              rw [Bool.eq_false_iff]
              intro hh
              simp only [own, Bool.and_eq_true, beq_iff_eq] at hh
              refine hno (List.mem_map.2 ⟨o', List.mem_filter.2 ⟨ho', hp'⟩, ?_⟩)
              rw [hh.1.1, hh.1.2, hh.2]
            rw [this])
        hnd (by omega) (by omega) k2
      refine ⟨?_, by rw [i2]; omega, i3, by rw [i4, s3]; omega, by omega, by omega, ?_, ?_⟩
      · rw [i1, s2, s3, List.append_assoc, List.zipIdx_cons]
        rfl
      · intro x hx
        rcases i7 x hx with hx | ⟨o', ho', h'⟩
        · rcases s6 with s6 | s6
          · rw [s6] at hx; exact Or.inl hx
          · rw [s6] at hx
            rcases List.mem_append.1 hx with hx | hx
            · exact Or.inl hx
            · simp only [List.mem_singleton] at hx
              exact Or.inr ⟨o, List.mem_cons_self, hp, by rw [hx]⟩
        · exact Or.inr ⟨o', List.mem_cons_of_mem _ ho', h'⟩
      · intro hid
        rw [List.map_cons, List.nodup_cons] at hid
        rw [i8 hid.2, s7, List.map_map]
        apply List.map_congr_left
        intro x _
        simp only [Function.comp, List.any_cons]
        by_cases hx : x.id = o.id
        · have hno : (os.filter P).any (fun y => y.id == o.id) = false := by
            rw [List.any_eq_false]
            intro y hy hh
            exact hid.1 (List.mem_map.2 ⟨y, (List.mem_filter.1 hy).1, by simpa using hh⟩)
          simp [hx, hno]
        · have hx2 : ¬(o.id = x.id) := fun hh => hx hh.symm
          simp [hx, hx2]
    · rw [if_pos (by simpa using hp)]
      simp only [List.filter_cons, if_neg hp] at hnd hmem hbuf ⊢
      obtain ⟨i1, i2, i3, i4, i5, i6, i7, i8⟩ := ih s b n (fun o' ho' => hok o' (List.mem_cons_of_mem _ ho')) hnd hmem hbuf hQ
      refine ⟨i1, i2, i3, i4, i5, i6, ?_, ?_⟩
      · intro x hx
        rcases i7 x hx with hx | ⟨o', ho', h'⟩
        · exact Or.inl hx
        · exact Or.inr ⟨o', List.mem_cons_of_mem _ ho', h'⟩
      · intro hid
        rw [List.map_cons, List.nodup_cons] at hid
        exact i8 hid.2

end Verif.Notify
