import Verif.CloudRd.Spec

/-! Lemmas about the directory at the cloud. -/

namespace Verif.CloudRd

/-- The resources of a list of links. -/
def rs (ls : List Link) : List Nat := ls.filterMap (·.res)

/-- The instance ids of a list of links. -/
def ids (ls : List Link) : List Int := ls.map (·.ins)

theorem takeRes_absent (r : Nat) : ∀ ls : List Link, hasRes r ls = false → takeRes r ls = (none, ls) := by
  intro ls; induction ls with
  | nil => intro _; rfl
  | cons l t ih =>
    intro h
    simp only [hasRes, List.any_cons, Bool.or_eq_false_iff, decide_eq_false_iff_not] at h
    simp only [takeRes, h.1, if_false, ih h.2]

theorem hasRes_iff (r : Nat) (ls : List Link) : hasRes r ls = true ↔ r ∈ rs ls := by
  simp only [hasRes, List.any_eq_true, decide_eq_true_eq, rs, List.mem_filterMap]

theorem takeRes_mem (r : Nat) : ∀ (ls : List Link) (l : Link), l ∈ (takeRes r ls).2 → l ∈ ls := by
  intro ls; induction ls with
  | nil => intro l h; exact h
  | cons a t ih =>
    intro l h
    simp only [takeRes] at h
    split at h
    · exact List.mem_cons_of_mem _ h
    · rcases List.mem_cons.1 h with h | h
      · exact h ▸ List.mem_cons_self
      · exact List.mem_cons_of_mem _ (ih l h)

theorem takeRes_rs (r : Nat) : ∀ ls : List Link, (∀ l ∈ ls, ∃ a, l.res = some a) → (rs ls).Nodup →
    rs (takeRes r ls).2 = (rs ls).filter (· ≠ r) := by
  intro ls; induction ls with
  | nil => intro _ _; rfl
  | cons l t ih =>
    intro h1 h2
    obtain ⟨a, ha⟩ := h1 l (by simp)
    have hr : rs (l :: t) = a :: rs t := by simp [rs, ha]
    rw [hr] at h2 ⊢
    obtain ⟨hn, h3⟩ := List.nodup_cons.1 h2
    by_cases e : a = r
    · subst e
      simp only [takeRes, ha, if_true]
      rw [List.filter_cons_of_neg (by simp)]
      symm
      apply List.filter_eq_self.2
      intro b hb; simp only [ne_eq, decide_not, Bool.not_eq_true', decide_eq_false_iff_not]
      intro e; exact hn (e ▸ hb)
    · have hne : ¬ l.res = some r := by rw [ha]; simpa using e
      simp only [takeRes, hne, if_false]
      rw [List.filter_cons_of_pos (by simpa using e)]
      have := ih (fun l hl => h1 l (by simp [hl])) h3
      rw [← this]; simp [rs, ha]

theorem takeRes_none_res (r : Nat) (ls : List Link) (h : ∀ l ∈ ls, l.res = none) : takeRes r ls = (none, ls) := by
  apply takeRes_absent
  simp only [hasRes, List.any_eq_false, decide_eq_true_eq]
  intro l hl e; rw [h l hl] at e; cases e

theorem takeRes_fst (r : Nat) : ∀ ls : List Link, (∀ l ∈ ls, ∃ a, l.res = some a) → (rs ls).Nodup →
    ((takeRes r ls).1.toList.map (·.ins)) = (ls.filter fun l => l.res = some r).map (·.ins) ∧
    (∀ l, (takeRes r ls).1 = some l → l ∈ ls ∧ l.res = some r) := by
  intro ls; induction ls with
  | nil => intro _ _; exact ⟨rfl, fun l h => by cases h⟩
  | cons l t ih =>
    intro h1 h2
    obtain ⟨a, ha⟩ := h1 l (by simp)
    have hr : rs (l :: t) = a :: rs t := by simp [rs, ha]
    rw [hr] at h2
    obtain ⟨hn, h3⟩ := List.nodup_cons.1 h2
    by_cases e : l.res = some r
    · simp only [takeRes, e, if_true, Option.toList_some, List.map_cons, List.map_nil, List.filter_cons, decide_true]
      constructor
      · have : t.filter (fun l => decide (l.res = some r)) = [] := by
          apply List.filter_eq_nil_iff.2
          intro b hb hbr
          have : b.res = some r := by simpa using hbr
          apply hn
          have e2 : a = r := by rw [ha] at e; simpa using e
          rw [e2]; exact List.mem_filterMap.2 ⟨b, hb, this⟩
        rw [this]; rfl
      · intro x hx; cases hx; exact ⟨by simp, e⟩
    · simp only [takeRes, e, if_false, List.filter_cons, decide_false, Bool.false_eq_true]
      obtain ⟨i1, i2⟩ := ih (fun l hl => h1 l (by simp [hl])) h3
      exact ⟨i1, fun x hx => ⟨List.mem_cons_of_mem _ (i2 x hx).1, (i2 x hx).2⟩⟩

/-- All resources of these links exist. -/
def Live (uri : Nat → Option Bytes) (ls : List Link) : Prop := ∀ l ∈ ls, ∃ r u, l.res = some r ∧ uri r = some u

theorem encode_ok (uri : Nat → Option Bytes) : ∀ ls : List Link, Live uri ls →
    ∃ x, encode uri ls = .ok x ∧ x.map some = ls.map fun l => (l.res.bind uri).map (·, l.ins) := by
  intro ls; induction ls with
  | nil => intro _; exact ⟨[], rfl, rfl⟩
  | cons l t ih =>
    intro h
    obtain ⟨r, u, h1, h2⟩ := h l (by simp)
    obtain ⟨x, i1, i2⟩ := ih fun l hl => h l (by simp [hl])
    refine ⟨(u, l.ins) :: x, by simp only [encode, h1, h2, i1, Out.bind], ?_⟩
    simp [h1, h2, i2]

theorem encode_spec (uri : Nat → Option Bytes) : ∀ (ls : List Link) (x : List (Bytes × Int)), encode uri ls = .ok x →
    x.map some = ls.map fun l => (l.res.bind uri).map (·, l.ins) := by
  intro ls; induction ls with
  | nil => intro x h; cases h; rfl
  | cons l t ih =>
    intro x h
    simp only [encode] at h
    split at h
    · cases h
    · rename_i r hr
      split at h
      · cases h
      · rename_i u hu
        cases he : encode uri t with
        | ub => rw [he] at h; cases h
        | ok y => rw [he] at h; cases h; simp [hr, hu, ih y he]

/-- What `cloudPublish` and `cloudDelete` do not touch, and the count of removals. -/
structure Frame (s s' : St) : Prop where
  pub : s'.c.pub = s.c.pub
  published : s'.c.published = s.c.published
  uri : s'.uri = s.uri
  loggedIn : s'.c.loggedIn = s.c.loggedIn
  rfnop : s'.c.rfnop = s.c.rfnop
  unowned : s'.c.unowned = s.c.unowned
  del : ∃ k, s'.c.del = s.c.del.drop k
  count : removedIds s'.sent ++ ids s'.c.del = removedIds s.sent ++ ids s.c.del

theorem Frame.refl (s : St) : Frame s s := ⟨rfl, rfl, rfl, rfl, rfl, rfl, ⟨0, rfl⟩, rfl⟩

theorem Frame.trans {a b c : St} (h : Frame a b) (g : Frame b c) : Frame a c := by
  refine ⟨g.pub.trans h.pub, g.published.trans h.published, g.uri.trans h.uri, g.loggedIn.trans h.loggedIn,
    g.rfnop.trans h.rfnop, g.unowned.trans h.unowned, ?_, g.count.trans h.count⟩
  obtain ⟨k, hk⟩ := h.del
  obtain ⟨j, hj⟩ := g.del
  exact ⟨k + j, by rw [hj, hk, List.drop_drop]⟩

theorem removedIds_append (a c : List Msg) : removedIds (a ++ c) = removedIds a ++ removedIds c := by
  induction a with
  | nil => rfl
  | cons m a ih => cases m <;> simp [removedIds, ih]

/-- `cloudPublish`. -/
theorem cloudPublish_spec (env : Env) (s : St) :
    (Live s.uri s.c.pub → ∃ s', cloudPublish env s = .ok s') ∧
    ∀ s', cloudPublish env s = .ok s' → Frame s s' ∧ s'.c = s.c ∧
      (s'.sent = s.sent ∨ (s.c.rfnop = true ∧ s.c.loggedIn = true ∧ env.can .publishCore = true ∧
          s.c.pub = [] ∧ s'.sent = s.sent ++ [.publishCore]) ∨
        ∃ x, s.c.rfnop = true ∧ s.c.loggedIn = true ∧ env.can (.publish x) = true ∧ s.c.pub ≠ [] ∧
          encode s.uri s.c.pub = .ok x ∧ s'.sent = s.sent ++ [.publish x]) ∧
      (s.c.rfnop = true → s.c.loggedIn = true → s.c.pub ≠ [] → (∀ m, env.can m = true) →
        ∃ x, encode s.uri s.c.pub = .ok x ∧ s'.sent = s.sent ++ [.publish x]) := by
  unfold cloudPublish
  by_cases h1 : s.c.rfnop = true
  · by_cases h2 : s.c.loggedIn = true
    · simp only [h1, h2, not_true_eq_false, if_false]
      cases hp : s.c.pub with
      | nil =>
        simp only [rdPublish]
        refine ⟨fun _ => ⟨_, rfl⟩, ?_⟩
        intro s' h
        cases h
        by_cases hc : env.can .publishCore = true
        · rw [if_pos hc]
          refine ⟨⟨rfl, rfl, rfl, rfl, rfl, rfl, ⟨0, rfl⟩, ?_⟩, rfl, .inr (.inl ⟨trivial, trivial, hc, trivial, rfl⟩), fun _ _ h => absurd rfl h⟩
          simp [removedIds_append, removedIds]
        · rw [if_neg hc]
          exact ⟨.refl s, rfl, .inl rfl, fun _ _ h => absurd rfl h⟩
      | cons l t =>
        simp only [rdPublish]
        constructor
        · intro hl
          obtain ⟨x, hx, _⟩ := encode_ok s.uri _ hl
          rw [hx]; exact ⟨_, rfl⟩
        · intro s' h
          cases hx : encode s.uri (l :: t) with
          | ub => rw [hx] at h; cases h
          | ok x =>
            rw [hx] at h
            simp only [Out.bind, Out.ok.injEq] at h
            subst h
            by_cases hc : env.can (.publish x) = true
            · rw [if_pos hc]
              refine ⟨⟨rfl, rfl, rfl, rfl, rfl, rfl, ⟨0, rfl⟩, ?_⟩, rfl, .inr (.inr ⟨x, trivial, trivial, hc, by simp, rfl, rfl⟩),
                fun _ _ _ _ => ⟨x, rfl, rfl⟩⟩
              simp [removedIds_append, removedIds]
            · rw [if_neg hc]
              exact ⟨.refl s, rfl, .inl rfl, fun _ _ _ h => absurd (h _) hc⟩
    · simp only [h1, h2, not_true_eq_false, if_false, not_false_eq_true, if_true]
      refine ⟨fun _ => ⟨s, rfl⟩, ?_⟩
      intro s' h; cases h
      exact ⟨.refl s, rfl, .inl rfl, fun _ h => absurd h (by simp [h2])⟩
  · simp only [h1, not_false_eq_true, if_true]
    refine ⟨fun _ => ⟨s, rfl⟩, ?_⟩
    intro s' h; cases h
    exact ⟨.refl s, rfl, .inl rfl, fun h => absurd h (by simp [h1])⟩

theorem fill_le (env : Env) : ∀ (ls : List Link) (t o : Nat), fill env t o ls ≤ ls.length := by
  intro ls; induction ls with
  | nil => intro t o; exact Nat.le_refl _
  | cons l r ih =>
    intro t o
    simp only [fill]
    split
    · exact Nat.zero_le _
    · have := ih (t + 5 + intLen l.ins) (o + optLen (4 + intLen l.ins))
      simp only [List.length_cons]; omega

/-- `rdDelete`. -/
theorem rdDelete_spec (env : Env) (ls : List Link) :
    ((rdDelete env ls).1 = [] ∧ (rdDelete env ls).2 = none) ∨
    ∃ k, k ≤ ls.length ∧ k = fill env 39 optBase ls ∧ env.max > 39 ∧ (rdDelete env ls).1 = [.delete (ids (ls.take k))] ∧
      (rdDelete env ls).2 = if k = 0 then none else some k := by
  unfold rdDelete
  by_cases h1 : env.max ≤ 39
  · rw [if_pos h1]; exact .inl ⟨rfl, rfl⟩
  · rw [if_neg h1]
    dsimp only
    by_cases h2 : env.can (.delete (List.map (·.ins) (ls.take (fill env 39 optBase ls)))) = false
    · rw [if_pos h2]; exact .inl ⟨rfl, rfl⟩
    · rw [if_neg h2]
      refine .inr ⟨_, fill_le env ls 39 optBase, rfl, by omega, ?_, ?_⟩
      · split <;> rfl
      · split <;> rfl

/-- `cloudDelete`. -/
theorem cloudDelete_spec (env : Env) (s : St) (hd : s.c.del ≠ []) :
    ∃ s', cloudDelete env s = .ok s' ∧ Frame s s' ∧ s'.c = { s.c with del := s'.c.del } ∧
      (s'.sent = s.sent ∧ s'.c.del = s.c.del ∨
        ∃ k, k ≤ s.c.del.length ∧ k = fill env 39 optBase s.c.del ∧ s.c.rfnop = true ∧ s.c.loggedIn = true ∧
          s'.sent = s.sent ++ [.delete (ids (s.c.del.take k))] ∧ s'.c.del = s.c.del.drop k) ∧
      (s.c.rfnop = true → s.c.loggedIn = true → (∀ m, env.can m = true) → env.max > 39 →
        s'.sent = s.sent ++ [.delete (ids (s.c.del.take (fill env 39 optBase s.c.del)))] ∧
        s'.c.del = s.c.del.drop (fill env 39 optBase s.c.del)) := by
  unfold cloudDelete
  rw [if_neg hd]
  by_cases h1 : s.c.rfnop = true
  · by_cases h2 : s.c.loggedIn = true
    · rw [if_neg (by simp [h1]), if_neg (by simp [h2])]
      dsimp only
      rcases rdDelete_spec env s.c.del with ⟨e1, e2⟩ | ⟨k, hk, hf, hm, e1, e2⟩
      · refine ⟨_, rfl, ?_, ?_, ?_, ?_⟩
        · rw [e1, e2]; exact ⟨rfl, rfl, rfl, rfl, rfl, rfl, ⟨0, rfl⟩, by simp [keep]⟩
        · rw [e2]
        · rw [e1, e2]; exact .inl ⟨by simp, rfl⟩
        · intro _ _ hc hmax
          exfalso
          unfold rdDelete at e1
          rw [if_neg (by omega)] at e1
          dsimp only at e1
          rw [if_neg (by rw [hc]; simp)] at e1
          split at e1 <;> cases e1
      · have hdel : keep (rdDelete env s.c.del).2 s.c.del = s.c.del.drop k := by
          rw [e2]; by_cases h0 : k = 0
          · simp [h0, keep]
          · simp [h0, keep]
        refine ⟨_, rfl, ?_, ?_, ?_, ?_⟩
        · refine ⟨rfl, rfl, rfl, rfl, rfl, rfl, ⟨k, hdel⟩, ?_⟩
          dsimp only
          rw [hdel, e1, removedIds_append]
          simp only [removedIds, List.append_nil, List.append_assoc]
          congr 1
          unfold ids
          rw [← List.map_append, List.take_append_drop]
        · rfl
        · right
          refine ⟨k, hk, hf, h1, h2, ?_, hdel⟩
          rw [e1]
        · intro _ _ _ _
          rw [← hf]
          exact ⟨by rw [e1], hdel⟩
    · rw [if_neg (by simp [h1]), if_pos (by simp [h2])]
      exact ⟨s, rfl, .refl s, rfl, .inl ⟨rfl, rfl⟩, fun _ h => absurd h (by simp [h2])⟩
  · rw [if_pos (by simp [h1])]
    exact ⟨s, rfl, .refl s, rfl, .inl ⟨rfl, rfl⟩, fun h => absurd h (by simp [h1])⟩

end Verif.CloudRd
