import Verif.CloudRd.Lemmas

/-! The invariant of the lists of links. -/

namespace Verif.CloudRd

/-- The invariant. -/
structure Inv (s : St) : Prop where
  res : ∀ l ∈ s.c.pub ++ s.c.published, ∃ r, l.res = some r
  live : ∀ r ∈ rs (s.c.pub ++ s.c.published), s.uri r ≠ none
  nodup : (rs (s.c.pub ++ s.c.published)).Nodup
  del : ∀ l ∈ s.c.del, l.res = none

theorem tracked_eq (s : St) : tracked s = rs (s.c.pub ++ s.c.published) := rfl

theorem Inv.liveAll {s : St} (h : Inv s) : Live s.uri (s.c.pub ++ s.c.published) := by
  intro l hl
  obtain ⟨r, hr⟩ := h.res l hl
  have := h.live r (List.mem_filterMap.2 ⟨l, hl, hr⟩)
  obtain ⟨u, hu⟩ := Option.ne_none_iff_exists'.1 this
  exact ⟨r, u, hr, hu⟩

theorem Inv.livePub {s : St} (h : Inv s) : Live s.uri s.c.pub := fun l hl => h.liveAll l (by simp [hl])

theorem Inv.frame {s s' : St} (h : Inv s) (f : Frame s s') : Inv s' := by
  refine ⟨?_, ?_, ?_, ?_⟩
  · rw [f.pub, f.published]; exact h.res
  · rw [f.pub, f.published, f.uri]; exact h.live
  · rw [f.pub, f.published]; exact h.nodup
  · obtain ⟨k, hk⟩ := f.del
    intro l hl; rw [hk] at hl; exact h.del l (List.mem_of_mem_drop hl)

theorem rs_append (a c : List Link) : rs (a ++ c) = rs a ++ rs c := List.filterMap_append

theorem Frame.tracked {s s' : St} (f : Frame s s') : tracked s' = tracked s := by
  rw [tracked_eq, tracked_eq, f.pub, f.published]

theorem mem_wanted (w w' : List Nat) (h : ∀ r, r ∈ w ↔ r ∈ w') (o : Op) (r : Nat) : r ∈ wanted w o ↔ r ∈ wanted w' o := by
  cases o with
  | add a i =>
    cases i with
    | none => exact h r
    | some i =>
      simp only [wanted]
      by_cases ha : a ∈ w
      · rw [if_pos ha, if_pos ((h a).1 ha)]; exact h r
      · rw [if_neg ha, if_neg (fun e => ha ((h a).2 e))]; simp [h r]
  | remove a => simp [wanted, h r]
  | destroy a => simp [wanted, h r]
  | _ => exact h r

/-- What a step does. -/
structure StepOk (s s' : St) (o : Op) : Prop where
  inv : Inv s'
  mem : ∀ r, r ∈ tracked s' ↔ r ∈ wanted (tracked s) o
  count : o ≠ .reset → removedIds s'.sent ++ ids s'.c.del = removedIds s.sent ++ ids s.c.del ++ droppedIds s o

theorem statusPub_ok (env : Env) {s : St} (h : Inv s) : ∃ s', statusPub env s = .ok s' ∧ Frame s s' := by
  unfold statusPub
  by_cases hp : s.c.pub = []
  · rw [if_pos hp]; exact ⟨s, rfl, .refl s⟩
  · rw [if_neg hp]
    obtain ⟨s', hs⟩ := (cloudPublish_spec env s).1 h.livePub
    exact ⟨s', hs, ((cloudPublish_spec env s).2 s' hs).1⟩

theorem statusDel_ok (env : Env) (s : St) : ∃ s', statusDel env s = .ok s' ∧ Frame s s' := by
  unfold statusDel
  by_cases hp : s.c.del = []
  · rw [if_pos hp]; exact ⟨s, rfl, .refl s⟩
  · rw [if_neg hp]
    obtain ⟨s', hs, hf, _⟩ := cloudDelete_spec env s hp
    exact ⟨s', hs, hf⟩

theorem inv_moveBack {s : St} (h : Inv s) : Inv { s with c := moveBack s.c } := by
  refine ⟨?_, ?_, ?_, h.del⟩
  · simpa [moveBack] using h.res
  · simpa [moveBack] using h.live
  · simpa [moveBack] using h.nodup

theorem republish_ok (env : Env) {s : St} (h : Inv s) : ∃ s', republish env s = .ok s' ∧ Frame { s with c := moveBack s.c } s' := by
  have hm := inv_moveBack h
  obtain ⟨s', hs⟩ := (cloudPublish_spec env _).1 hm.livePub
  exact ⟨s', hs, ((cloudPublish_spec env _).2 s' hs).1⟩

theorem moved_tracked (s : St) : tracked { s with c := moveBack s.c } = tracked s := by
  simp [tracked, moveBack]

theorem takeHref_perm (uri : Nat → Option Bytes) (h : Bytes) : ∀ (ls : List Link), Live uri ls →
    ∃ x, takeHref uri h ls = .ok x ∧
      (∀ l, x.1 = some l → ls.Perm (l :: x.2) ∧ ∃ r, l.res = some r ∧ uri r = some h) ∧
      (x.1 = none → x.2 = ls ∧ ∀ l ∈ ls, ∀ r, l.res = some r → uri r ≠ some h) := by
  intro ls; induction ls with
  | nil => intro _; exact ⟨_, rfl, (fun l hx => by cases hx), fun _ => ⟨rfl, by simp⟩⟩
  | cons a t ih =>
    intro hl
    obtain ⟨r, u, h1, h2⟩ := hl a (by simp)
    obtain ⟨x, i1, i2, i3⟩ := ih fun l hl' => hl l (by simp [hl'])
    simp only [takeHref, h1, h2]
    by_cases e : u = h
    · rw [if_pos e]
      refine ⟨_, rfl, ?_, fun h => by cases h⟩
      intro l hx; cases hx
      exact ⟨List.Perm.refl _, r, h1, by rw [h2, e]⟩
    · rw [if_neg e, i1]
      refine ⟨_, rfl, ?_, ?_⟩
      · intro l hx
        obtain ⟨p, q⟩ := i2 l hx
        exact ⟨(List.Perm.cons a p).trans (List.Perm.swap _ _ _), q⟩
      · intro hx
        obtain ⟨p, q⟩ := i3 hx
        refine ⟨by simp [p], ?_⟩
        intro l hl' r' hr'
        rcases List.mem_cons.1 hl' with rfl | hl'
        · rw [h1] at hr'; cases hr'; rw [h2]; simpa using e
        · exact q l hl' r' hr'

/-- What an answer to a publication changes. -/
structure Accepts (s s' : St) : Prop where
  perm : (rs (s'.c.pub ++ s'.c.published)).Perm (rs (s.c.pub ++ s.c.published))
  inv : Inv s'
  uri : s'.uri = s.uri
  sent : s'.sent = s.sent
  del : s'.c.del = s.c.del

theorem acceptAll_ok : ∀ (ls : List (Option Bytes × Option Int)) (s : St), Inv s → ∃ s', acceptAll ls s = .ok s' ∧ Accepts s s' := by
  intro ls; induction ls with
  | nil => intro s h; exact ⟨s, rfl, List.Perm.refl _, h, rfl, rfl, rfl⟩
  | cons a t ih =>
    intro s h
    obtain ⟨ah, ai⟩ := a
    cases ah with
    | none => exact ih s h
    | some u =>
      cases ai with
      | none => exact ih s h
      | some i =>
        simp only [acceptAll]
        obtain ⟨x, h1, h2, h3⟩ := takeHref_perm s.uri u s.c.pub h.livePub
        rw [h1]
        simp only [Out.bind]
        cases hx : x.1 with
        | none => exact ih s h
        | some l =>
          dsimp only
          obtain ⟨p, r, hr, hu⟩ := h2 l hx
          have hp : (rs (x.2 ++ (s.c.published ++ [{ l with ins := i }]))).Perm (rs (s.c.pub ++ s.c.published)) := by
            have e1 : rs (x.2 ++ (s.c.published ++ [{ l with ins := i }])) = rs (x.2 ++ (s.c.published ++ [l])) := by
              simp [rs, hr]
            rw [e1]
            apply List.Perm.filterMap
            have : (x.2 ++ (s.c.published ++ [l])).Perm ((l :: x.2) ++ s.c.published) := by
              rw [← List.append_assoc, List.cons_append]
              exact List.perm_append_comm
            exact this.trans (List.Perm.append_right _ p.symm)
          have hi : Inv { s with c := { s.c with pub := x.2, published := s.c.published ++ [{ l with ins := i }] } } := by
            refine ⟨?_, ?_, hp.nodup_iff.2 h.nodup, h.del⟩
            · intro m hm
              simp only [List.mem_append, List.mem_singleton] at hm
              rcases hm with hm | hm | hm
              · exact h.res m (List.mem_append_left _ (p.mem_iff.2 (List.mem_cons_of_mem _ hm)))
              · exact h.res m (List.mem_append_right _ hm)
              · subst hm; exact ⟨r, hr⟩
            · intro b hb
              exact h.live b (hp.mem_iff.1 hb)
          obtain ⟨s', k1, k2⟩ := ih _ hi
          exact ⟨s', k1, k2.perm.trans hp, k2.inv, k2.uri, k2.sent, k2.del⟩

theorem rs_takeRes {s : St} (h : Inv s) (r : Nat) :
    rs ((takeRes r s.c.pub).2 ++ (takeRes r s.c.published).2) = (tracked s).filter (· ≠ r) := by
  have hn := h.nodup
  rw [rs_append] at hn
  obtain ⟨n1, n2, _⟩ := List.nodup_append.1 hn
  rw [rs_append, takeRes_rs r _ (fun l hl => h.res l (by simp [hl])) n1,
    takeRes_rs r _ (fun l hl => h.res l (by simp [hl])) n2, tracked_eq, rs_append, List.filter_append]

/-- `deleteResource`. -/
theorem delete_ok (env : Env) {s : St} (h : Inv s) (r : Nat) :
    ∃ s', deleteResource env r s = .ok s' ∧ Inv s' ∧ tracked s' = (tracked s).filter (· ≠ r) ∧ s'.uri = s.uri ∧
      removedIds s'.sent ++ ids s'.c.del = removedIds s.sent ++ ids s.c.del ++ droppedIds s (.remove r) := by
  have hn := h.nodup
  rw [rs_append] at hn
  obtain ⟨n1, n2, _⟩ := List.nodup_append.1 hn
  have hpubres : ∀ l ∈ s.c.published, ∃ a, l.res = some a := fun l hl => h.res l (by simp [hl])
  have hf := takeRes_fst r s.c.published hpubres n2
  have hrs := rs_takeRes h r
  have base : ∀ d : List Link, (∀ l ∈ d, l.res = none) →
      Inv { s with c := { s.c with pub := (takeRes r s.c.pub).2, published := (takeRes r s.c.published).2, del := d } } := by
    intro d hd
    refine ⟨?_, ?_, ?_, hd⟩
    · intro l hl
      rcases List.mem_append.1 hl with hl | hl
      · exact h.res l (List.mem_append_left _ (takeRes_mem r _ l hl))
      · exact h.res l (List.mem_append_right _ (takeRes_mem r _ l hl))
    · intro a ha
      have ha' : a ∈ (tracked s).filter (· ≠ r) := by rw [← hrs]; exact ha
      exact h.live a (List.mem_filter.1 ha').1
    · have : ((tracked s).filter (· ≠ r)).Nodup := h.nodup.filter _
      rw [← hrs] at this; exact this
  unfold deleteResource
  dsimp only
  by_cases hu : s.c.unowned = true
  · rw [if_pos hu]
    refine ⟨_, rfl, ?_, hrs, rfl, ?_⟩
    · rw [takeRes_none_res r s.c.del h.del]; exact base _ h.del
    · rw [takeRes_none_res r s.c.del h.del]
      simp [droppedIds, hu]
  · rw [if_neg hu]
    cases hx : (takeRes r s.c.published).1 with
    | none =>
      refine ⟨_, rfl, base _ h.del, hrs, rfl, ?_⟩
      rw [hx] at hf
      have e := hf.1
      simp only [Option.toList_none, List.map_nil] at e
      simp only [droppedIds, hu, if_false, Bool.false_eq_true, ← e, List.append_nil]
    | some l =>
      dsimp only
      rw [hx] at hf
      have e := hf.1
      simp only [Option.toList_some, List.map_cons, List.map_nil] at e
      have hb := base (s.c.del ++ [⟨none, l.ins⟩]) (by
        intro m hm
        rcases List.mem_append.1 hm with hm | hm
        · exact h.del m hm
        · simp only [List.mem_singleton] at hm; rw [hm])
      obtain ⟨s', k1, k2, _⟩ := cloudDelete_spec env { s with c := { s.c with pub := (takeRes r s.c.pub).2, published := (takeRes r s.c.published).2, del := s.c.del ++ [⟨none, l.ins⟩] } } (by simp)
      refine ⟨s', k1, hb.frame k2, ?_, k2.uri, ?_⟩
      · rw [k2.tracked]; exact hrs
      · rw [k2.count]
        simp only [droppedIds, hu, if_false, Bool.false_eq_true, ← e]
        simp [ids]

/-- `addResource`. -/
theorem add_ok (env : Env) {s : St} (h : Inv s) (r : Nat) (ins : Option Int) (hl : s.uri r ≠ none) :
    ∃ b s', addResource env ins r s = .ok (b, s') ∧ Inv s' ∧ (∀ a, a ∈ tracked s' ↔ a ∈ wanted (tracked s) (.add r ins)) ∧ s'.uri = s.uri ∧
      removedIds s'.sent ++ ids s'.c.del = removedIds s.sent ++ ids s.c.del ∧
      (b = true ↔ r ∈ tracked s') := by
  have ht : r ∈ tracked s ↔ (hasRes r s.c.pub = true ∨ hasRes r s.c.published = true) := by
    rw [hasRes_iff, hasRes_iff, tracked_eq, rs_append, List.mem_append]
  unfold addResource
  by_cases h1 : hasRes r s.c.pub = true
  · rw [if_pos h1]
    have hm := ht.2 (.inl h1)
    refine ⟨true, s, rfl, h, ?_, rfl, rfl, by simp [hm]⟩
    intro a; cases ins <;> simp [wanted, hm]
  · rw [if_neg h1]
    by_cases h2 : hasRes r s.c.published = true
    · rw [if_pos h2]
      have hm := ht.2 (.inr h2)
      refine ⟨true, s, rfl, h, ?_, rfl, rfl, by simp [hm]⟩
      intro a; cases ins <;> simp [wanted, hm]
    · rw [if_neg h2]
      have hm : r ∉ tracked s := fun e => (ht.1 e).elim h1 h2
      dsimp only
      rw [takeRes_none_res r s.c.del h.del]
      cases ins with
      | none => exact ⟨false, s, rfl, h, fun a => Iff.rfl, rfl, rfl, by simp [hm]⟩
      | some i =>
        dsimp only
        have e : rs (s.c.pub ++ [⟨some r, i⟩] ++ s.c.published) = rs s.c.pub ++ r :: rs s.c.published := by
          simp [rs]
        have hi : Inv { s with c := { s.c with pub := s.c.pub ++ [⟨some r, i⟩] } } := by
          refine ⟨?_, ?_, ?_, h.del⟩
          · intro l hl'
            simp only [List.mem_append, List.mem_singleton] at hl'
            rcases hl' with (hl' | hl') | hl'
            · exact h.res l (by simp [hl'])
            · exact ⟨r, by rw [hl']⟩
            · exact h.res l (by simp [hl'])
          · intro a ha
            dsimp only at ha
            rw [e] at ha
            by_cases har : a = r
            · subst har; exact hl
            · exact h.live a (by rw [rs_append]; simp only [List.mem_append, List.mem_cons, har, false_or] at ha ⊢; exact ha)
          · dsimp only
            rw [e, (List.perm_middle).nodup_iff, List.nodup_cons]
            rw [tracked_eq, rs_append] at hm
            exact ⟨hm, by rw [← rs_append]; exact h.nodup⟩
        obtain ⟨s', k1⟩ := (cloudPublish_spec env _).1 hi.livePub
        have k2 := ((cloudPublish_spec env _).2 s' k1).1
        have htr : ∀ a, a ∈ tracked s' ↔ a ∈ wanted (tracked s) (.add r (some i)) := by
          intro a
          rw [k2.tracked, tracked_eq]
          dsimp only
          rw [e]
          simp only [wanted]
          rw [if_neg hm]
          simp only [List.mem_append, List.mem_cons, tracked_eq, rs_append]
          constructor
          · rintro (h | h | h)
            · exact .inr (.inl h)
            · exact .inl h
            · exact .inr (.inr h)
          · rintro (h | h | h)
            · exact .inr (.inl h)
            · exact .inl h
            · exact .inr (.inr h)
        rw [k1]
        refine ⟨true, s', rfl, hi.frame k2, htr, k2.uri, k2.count, ?_⟩
        simp only [true_iff]
        rw [htr]; simp [wanted, hm]

/-- Every proper step succeeds and keeps the invariant. -/
theorem step_ok (env : Env) {s : St} (h : Inv s) (o : Op) (hp : Proper s o) : ∃ s', step env s o = .ok s' ∧ StepOk s s' o := by
  have same : ∀ {s' : St} (o : Op), Frame s s' → wanted (tracked s) o = tracked s → droppedIds s o = [] → StepOk s s' o := by
    intro s' o f hw hd
    refine ⟨h.frame f, fun r => by rw [f.tracked, hw], fun _ => by rw [f.count, hd, List.append_nil]⟩
  cases o with
  | create r u =>
    refine ⟨_, rfl, ⟨h.res, ?_, h.nodup, h.del⟩, fun _ => Iff.rfl, fun _ => by simp [droppedIds]⟩
    intro a ha
    have hr : a ≠ r := by
      intro e; subst e; exact h.live a ha hp
    simpa [hr] using h.live a ha
  | add r i =>
    obtain ⟨b, s', k1, k2, k3, k4, k5, _⟩ := add_ok env h r i hp
    refine ⟨s', by simp only [step, k1, Out.bind], k2, k3, fun _ => by rw [k5]; simp [droppedIds]⟩
  | remove r =>
    obtain ⟨s', k1, k2, k3, k4, k5⟩ := delete_ok env h r
    exact ⟨s', k1, k2, fun a => by rw [k3]; rfl, fun _ => k5⟩
  | destroy r =>
    obtain ⟨s', k1, k2, k3, k4, k5⟩ := delete_ok env h r
    refine ⟨{ s' with uri := fun a => if a = r then none else s'.uri a }, by simp only [step, k1, Out.bind], ⟨k2.res, ?_, k2.nodup, k2.del⟩, fun a => ?_, fun _ => k5⟩
    · intro a ha
      have : a ∈ tracked s' := ha
      rw [k3] at this
      have hne := (List.mem_filter.1 this).2
      have hne' : a ≠ r := by simpa using hne
      simpa [hne'] using k2.live a ha
    · show a ∈ tracked s' ↔ _
      rw [k3]; rfl
  | freeCollection r =>
    refine ⟨_, rfl, ⟨h.res, ?_, h.nodup, h.del⟩, fun _ => Iff.rfl, fun _ => by simp [droppedIds]⟩
    intro a ha
    have hr : a ≠ r := by
      intro e; subst e; exact hp ha
    simpa [hr] using h.live a ha
  | publish =>
    obtain ⟨s1, k1, f1⟩ := republish_ok env h
    obtain ⟨s2, k2, f2⟩ := statusDel_ok env s1
    refine ⟨s2, by simp only [step, publishResources, k1, Out.bind, k2], (inv_moveBack h).frame (f1.trans f2), ?_, ?_⟩
    · intro r; rw [(f1.trans f2).tracked, moved_tracked]; rfl
    · intro _; rw [(f1.trans f2).count]; simp [droppedIds, moveBack]
  | hourly =>
    by_cases ht : s.c.timer = true
    · obtain ⟨s1, k1, f1⟩ := republish_ok env h
      refine ⟨s1, by simp only [step, ht, if_true, k1], (inv_moveBack h).frame f1, ?_, ?_⟩
      · intro r; rw [f1.tracked, moved_tracked]; rfl
      · intro _; rw [f1.count]; simp [droppedIds, moveBack]
    · exact ⟨s, by simp only [step, ht, if_false, Bool.false_eq_true], same _ (.refl s) rfl rfl⟩
  | pubAnswer ok ls =>
    simp only [step, publishAnswer]
    by_cases h1 : s.c.loggedIn = true
    · rw [if_neg (by simp [h1])]
      cases ok with
      | false => exact ⟨s, rfl, same _ (.refl s) rfl rfl⟩
      | true =>
        cases ls with
        | none => exact ⟨s, rfl, same _ (.refl s) rfl rfl⟩
        | some ls =>
          obtain ⟨s', k1, k2⟩ := acceptAll_ok ls s h
          refine ⟨s', by simpa using k1, k2.inv, fun r => ?_, fun _ => ?_⟩
          · exact k2.perm.mem_iff
          · rw [k2.sent, k2.del]; simp [droppedIds]
    · rw [if_pos (by simp [h1])]; exact ⟨s, rfl, same _ (.refl s) rfl rfl⟩
  | delAnswer i =>
    simp only [step, deleteAnswer]
    by_cases h1 : s.c.del = []
    · rw [if_pos h1]; exact ⟨s, rfl, same _ (.refl s) rfl rfl⟩
    · rw [if_neg h1]
      cases i with
      | true => exact ⟨s, rfl, same _ (.refl s) rfl rfl⟩
      | false =>
        obtain ⟨s', k1, k2, _⟩ := cloudDelete_spec env s h1
        exact ⟨s', by simpa using k1, same _ k2 rfl rfl⟩
  | status l f =>
    simp only [step, statusChanged]
    cases l with
    | false =>
      exact ⟨_, rfl, ⟨h.res, h.live, h.nodup, h.del⟩, fun _ => Iff.rfl, fun _ => by simp [droppedIds]⟩
    | true =>
      cases f with
      | true => exact ⟨_, rfl, ⟨h.res, h.live, h.nodup, h.del⟩, fun _ => Iff.rfl, fun _ => by simp [droppedIds]⟩
      | false =>
        have h' : Inv { s with c := { s.c with loggedIn := true, refreshed := false } } := ⟨h.res, h.live, h.nodup, h.del⟩
        obtain ⟨s1, k1, f1⟩ := statusPub_ok env h'
        obtain ⟨s2, k2, f2⟩ := statusDel_ok env s1
        have h2 := (h'.frame (f1.trans f2))
        simp only [not_true_eq_false, if_false, Bool.false_eq_true, k1, Out.bind, k2]
        refine ⟨_, rfl, ⟨h2.res, h2.live, h2.nodup, h2.del⟩, fun r => ?_, fun _ => ?_⟩
        · show r ∈ tracked s2 ↔ _
          rw [(f1.trans f2).tracked]; rfl
        · show removedIds s2.sent ++ ids s2.c.del = _
          rw [(f1.trans f2).count]; simp [droppedIds]
  | state n u => exact ⟨_, rfl, ⟨h.res, h.live, h.nodup, h.del⟩, fun _ => Iff.rfl, fun _ => by simp [droppedIds]⟩
  | reset =>
    refine ⟨_, rfl, ⟨?_, ?_, ?_, by simp [reset, moveBack]⟩, fun r => ?_, fun h => absurd rfl h⟩
    · simpa [reset, moveBack] using h.res
    · simpa [reset, moveBack] using h.live
    · simpa [reset, moveBack] using h.nodup
    · simp [tracked, reset, moveBack, wanted]

end Verif.CloudRd
