import Verif.Life.Lemmas

namespace Verif.Life

theorem put_ne {α : Type} {f : Nat → α} {i j : Nat} {v : α} (h : j ≠ i) : put f i v j = f j := if_neg h
theorem put_eq {α : Type} {f : Nat → α} {i : Nat} {v : α} : put f i v i = v := if_pos rfl

/-- What nothing refers to is freed. -/
theorem Inv.free {s : St} (h : Inv s) {a : Nat} (hl : ¬ Listed s a) (ho : ∀ o ∈ s.obs, o.res ≠ a) (hb : ∀ b ∈ s.cbs, b.data ≠ a)
    (ht : ∀ c, a ∉ s.links c) : Inv { s with heap := put s.heap a none } := by
  have ne : ∀ b, Listed s b → put s.heap a none b = s.heap b := fun b lb => put_ne (fun e => hl (e ▸ lb))
  exact { h with
    appv := fun b q => let ⟨x, e1, e2⟩ := h.appv b q; ⟨x, (ne b (.inl q)).trans e1, e2⟩
    delv := fun b q => let ⟨x, e1, e2⟩ := h.delv b q; ⟨x, (ne b (.inr (.inl q))).trans e1, e2⟩
    colv := fun b q => let ⟨x, e1, e2⟩ := h.colv b q; ⟨x, (ne b (.inr (.inr q))).trans e1, e2⟩
    uniq := fun b c x y lb lc eb ec => by
      have eb := (ne b lb).symm.trans eb
      have ec := (ne c lc).symm.trans ec
      exact h.uniq b c x y lb lc eb ec
    obsv := fun o q => by
      show ∃ x, put s.heap a none o.res = some x ∧ _
      rw [put_ne (ho o q)]
      exact h.obsv o q
    cnt := fun b x e => by
      change put s.heap a none b = some x at e
      unfold put at e
      split at e
      · cases e
      · exact h.cnt b x e
    cbv := fun b q => by
      show ∃ x, put s.heap a none b.data = some x ∧ _
      rw [put_ne (hb b q)]
      exact h.cbv b q
    tgt := fun c t q => by
      refine ⟨(h.tgt c t q).1, ?_⟩
      show (put s.heap a none c).map Obj.dev = (put s.heap a none t).map Obj.dev
      have hc : Listed s c := .inr (.inr (h.lnk c (fun e => by change t ∈ s.links c at q; rw [e] at q; cases q)))
      rw [ne c hc, ne t (h.tgt c t q).1]
      exact (h.tgt c t q).2 }

theorem new_ok {s : St} (h : Inv s) (a : Nat) (col : Bool) (d u : Nat) : Inv (new a col d u s) := by
  unfold new
  split
  · exact h
  next e =>
    have dead : ∀ b x, s.heap b = some x → b ≠ a := fun b x eb q => by rw [q, e] at eb; cases eb
    have nl : ¬ Listed s a := fun l => let ⟨x, q⟩ := h.listed l; dead a x q rfl
    have ne : ∀ b, Listed s b → put s.heap a (some ⟨s.ngen, col, d, u⟩) b = s.heap b := fun b lb => put_ne (fun q => nl (q ▸ lb))
    have la : s.links a = [] := by
      cases hk : s.links a with
      | nil => rfl
      | cons t l => exact absurd (Or.inr (.inr (h.lnk a (by rw [hk]; exact List.cons_ne_nil _ _)))) nl
    have lp : put s.links a [] = s.links := by
      funext c
      unfold put
      split
      next q => rw [q, la]
      · rfl
    rw [lp]
    exact { h with
      appv := fun b q => let ⟨x, e1, e2⟩ := h.appv b q; ⟨x, (ne b (.inl q)).trans e1, e2⟩
      delv := fun b q => let ⟨x, e1, e2⟩ := h.delv b q; ⟨x, (ne b (.inr (.inl q))).trans e1, e2⟩
      colv := fun b q => let ⟨x, e1, e2⟩ := h.colv b q; ⟨x, (ne b (.inr (.inr q))).trans e1, e2⟩
      uniq := fun b c x y lb lc eb ec => by
        have eb := (ne b lb).symm.trans eb
        have ec := (ne c lc).symm.trans ec
        exact h.uniq b c x y lb lc eb ec
      obsv := fun o q => by
        obtain ⟨x, e1, e2⟩ := h.obsv o q
        exact ⟨x, (put_ne (dead _ x e1)).trans e1, e2⟩
      cnt := fun b x eb => by
        change put s.heap a (some ⟨s.ngen, col, d, u⟩) b = some x at eb
        show put s.nobs a 0 b = (s.obs.filter fun o => o.res == b).length
        by_cases hb : b = a
        · subst hb
          rw [put_eq]
          symm
          rw [List.length_eq_zero_iff, List.filter_eq_nil_iff]
          intro o ho q
          obtain ⟨y, e1, -⟩ := h.obsv o ho
          exact dead _ y e1 (eq_of_beq q)
        · rw [put_ne hb] at eb ⊢
          exact h.cnt b x eb
      cbv := fun b q => by
        obtain ⟨x, e1, e2⟩ := h.cbv b q
        exact ⟨x, (put_ne (dead _ x e1)).trans e1, e2⟩
      tgt := fun c t q => by
        refine ⟨(h.tgt c t q).1, ?_⟩
        show (put s.heap a (some ⟨s.ngen, col, d, u⟩) c).map Obj.dev = (put s.heap a (some ⟨s.ngen, col, d, u⟩) t).map Obj.dev
        have hc : Listed s c := .inr (.inr (h.lnk c (fun e => by change t ∈ s.links c at q; rw [e] at q; cases q)))
        rw [ne c hc, ne t (h.tgt c t q).1]
        exact (h.tgt c t q).2 }

theorem not_inUse {s : St} {x : Obj} (h : inUse s x = false) {b : Nat} {y : Obj} (l : Listed s b) (e : s.heap b = some y) :
    ¬ (y.dev = x.dev ∧ y.uri = x.uri) := by
  rintro ⟨h1, h2⟩
  unfold inUse at h
  rw [List.any_eq_false] at h
  have := h b (by rw [List.mem_append, List.mem_append, or_assoc]; exact l)
  rw [e] at this
  dsimp only at this
  rw [h1, h2, beq_self_eq_true, beq_self_eq_true] at this
  exact this rfl

/-- One more is listed. -/
theorem uniq_add {s : St} (h : Inv s) {a : Nat} {x : Obj} (e : s.heap a = some x) (hu : inUse s x = false) {P : Nat → Prop}
    (hP : ∀ b, P b → Listed s b ∨ b = a) : ∀ b c y z, P b → P c → s.heap b = some y → s.heap c = some z → y.dev = z.dev → y.uri = z.uri → b = c := by
  intro b c y z hb hc eb ec e1 e2
  rcases hP b hb with lb | lb <;> rcases hP c hc with lc | lc
  · exact h.uniq b c y z lb lc eb ec e1 e2
  · subst lc
    rw [e] at ec
    cases ec
    exact absurd ⟨e1, e2⟩ (not_inUse hu lb eb)
  · subst lb
    rw [e] at eb
    cases eb
    exact absurd ⟨e1.symm, e2.symm⟩ (not_inUse hu lc ec)
  · rw [lb, lc]

theorem add_ok {s : St} (h : Inv s) {a : Nat} {x : Obj} (e : s.heap a = some x) : ∃ s', add a s = .ok s' ∧ Inv s' := by
  unfold add
  rw [e]
  dsimp only
  split
  next hc =>
    split
    · exact ⟨s, rfl, h⟩
    next hn =>
      simp only [Bool.or_eq_true, not_or, Bool.not_eq_true] at hn
      have mono : ∀ b, Listed s b → Listed ({ s with cols := s.cols ++ [a] } : St) b := fun b lb => by
        rcases lb with l | l | l
        · exact .inl l
        · exact .inr (.inl l)
        · exact .inr (.inr (List.mem_append_left _ l))
      exact ⟨_, rfl, { h with
        colv := fun b q => by
          rcases List.mem_append.mp q with q | q
          · exact h.colv b q
          · rw [List.mem_singleton] at q
            subst q
            exact ⟨x, e, hc⟩
        uniq := by
          refine uniq_add h e hn.2 fun b lb => ?_
          rcases lb with l | l | l
          · exact .inl (.inl l)
          · exact .inl (.inr (.inl l))
          · rcases List.mem_append.mp l with l | l
            · exact .inl (.inr (.inr l))
            · exact .inr (List.mem_singleton.mp l)
        lnk := fun c q => List.mem_append_left _ (h.lnk c q)
        tgt := fun c t q => ⟨mono t (h.tgt c t q).1, (h.tgt c t q).2⟩ }⟩
  next hc =>
    split
    · exact ⟨s, rfl, h⟩
    next hn =>
      simp only [Bool.or_eq_true, not_or, Bool.not_eq_true] at hn
      have mono : ∀ b, Listed s b → Listed ({ s with app := s.app ++ [a] } : St) b := fun b lb => by
        rcases lb with l | l | l
        · exact .inl (List.mem_append_left _ l)
        · exact .inr (.inl l)
        · exact .inr (.inr l)
      exact ⟨_, rfl, { h with
        appv := fun b q => by
          rcases List.mem_append.mp q with q | q
          · exact h.appv b q
          · rw [List.mem_singleton] at q
            subst q
            exact ⟨x, e, Bool.not_eq_true _ |>.mp hc⟩
        uniq := by
          refine uniq_add h e hn.2 fun b lb => ?_
          rcases lb with l | l | l
          · rcases List.mem_append.mp l with l | l
            · exact .inl (.inl l)
            · exact .inr (List.mem_singleton.mp l)
          · exact .inl (.inr (.inl l))
          · exact .inl (.inr (.inr l))
        tgt := fun c t q => ⟨mono t (h.tgt c t q).1, (h.tgt c t q).2⟩ }⟩

theorem link_ok {s : St} (h : Inv s) {c a : Nat} (m : Minded s (.link c a)) : ∃ s', link c a s = .ok s' ∧ Inv s' := by
  obtain ⟨hc, ha, hn, hd⟩ := m
  have la : Listed s a := ha.elim .inl fun q => .inr (.inr q)
  obtain ⟨y, ey, hy⟩ := h.colv c hc
  obtain ⟨x, ex⟩ := h.listed la
  obtain ⟨k, ek, pk⟩ := insert_ok (h := s.heap) a x.uri (l := s.links c) fun t ht => h.listed (h.tgt c t ht).1
  unfold link
  rw [ey, ex]
  dsimp only
  rw [if_pos hy, ek]
  refine ⟨_, rfl, Inv.sched ?_ (x := y) ey (fun _ => hy) (fun q => nomatch q)⟩
  refine h.newLinks (fun _ => hc) ?_ fun t ht => ?_
  · rw [pk.nodup_iff, List.nodup_cons]
    exact ⟨hn, h.lnd c⟩
  · rcases List.mem_cons.mp (pk.mem_iff.mp ht) with q | q
    · rw [q]
      exact ⟨la, hd⟩
    · exact h.tgt c t q

theorem unlink_ok {s : St} (h : Inv s) {c a : Nat} {y : Obj} (ey : s.heap c = some y) (hy : y.col = true) :
    ∃ s', unlink c a s = .ok s' ∧ Inv s' := by
  unfold unlink
  rw [ey]
  dsimp only
  rw [if_neg (by rw [hy]; exact Bool.false_ne_true)]
  split
  · exact ⟨_, rfl, (h.erased c a).sched (x := y) ey (fun _ => hy) (fun q => nomatch q)⟩
  · exact ⟨s, rfl, h⟩

theorem addObs_ok {s : St} (h : Inv s) {e : Nat} {i : Iface} {a : Nat} {x : Obj} (ex : s.heap a = some x)
    (hl : (s.obs.filter fun o => o.res == a).length < 255) : Inv (addObs e i a x s) := by
  have hf : ∀ b, ((s.obs ++ [(⟨s.nid, e, x.dev, x.uri, i, a, x.gen⟩ : Obs)]).filter fun o => o.res == b).length =
      (s.obs.filter fun o => o.res == b).length + if a = b then 1 else 0 := by
    intro b
    rw [List.filter_append, List.length_append]
    by_cases hb : a = b
    · rw [if_pos hb, List.filter_cons_of_pos (by simpa using hb)]; rfl
    · rw [if_neg hb, List.filter_cons_of_neg (by simpa using hb)]; rfl
  exact { h with
    obsv := fun o q => by
      rcases List.mem_append.mp q with q | q
      · exact h.obsv o q
      · rw [List.mem_singleton] at q
        subst q
        exact ⟨x, ex, rfl, rfl⟩
    cnt := fun b y eb => by
      show put s.nobs a ((s.nobs a + 1) % 256) b = ((s.obs ++ [(⟨s.nid, e, x.dev, x.uri, i, a, x.gen⟩ : Obs)]).filter fun o => o.res == b).length
      have h1 := hf b
      have h2 := h.cnt b y eb
      rw [h1]
      by_cases hb : b = a
      · subst hb
        rw [put_eq, if_pos rfl]
        omega
      · rw [put_ne hb, if_neg (fun q => hb q.symm)]
        exact h2
    lim := fun b => by
      show ((s.obs ++ [(⟨s.nid, e, x.dev, x.uri, i, a, x.gen⟩ : Obs)]).filter fun o => o.res == b).length ≤ 255
      rw [hf b]
      have := h.lim b
      by_cases hb : a = b
      · subst hb
        rw [if_pos rfl]
        omega
      · rw [if_neg hb]
        exact this
    ids := by
      show ((s.obs ++ [(⟨s.nid, e, x.dev, x.uri, i, a, x.gen⟩ : Obs)]).map (·.id)).Nodup
      rw [List.map_append, List.nodup_append]
      refine ⟨h.ids, List.nodup_cons.mpr ⟨List.not_mem_nil, List.nodup_nil⟩, ?_⟩
      intro n hn m hm
      obtain ⟨o, ho, eo⟩ := List.mem_map.mp hn
      have := h.idlt o ho
      rw [List.map_cons, List.map_nil, List.mem_singleton] at hm
      dsimp only at hm eo
      omega
    idlt := fun o q => by
      show o.id < s.nid + 1
      rcases List.mem_append.mp q with q | q
      · have := h.idlt o q
        omega
      · rw [List.mem_singleton] at q
        subst q
        show s.nid < _
        omega }

theorem observe_ok {s : St} (h : Inv s) {e : Nat} {i : Iface} {a : Nat} (m : (s.obs.filter fun o => o.res == a).length < 255) :
    ∃ s', observe e i a s = .ok s' ∧ Inv s' := by
  unfold observe
  split
  next ha =>
    rw [Bool.or_eq_true, List.contains_iff_mem, List.contains_iff_mem] at ha
    obtain ⟨x, ex⟩ := h.listed (ha.elim .inl fun q => .inr (.inr q))
    rw [ex]
    dsimp only
    rw [h.derefLinks a]
    obtain ⟨n, e1, i1⟩ := removeBy_ok silent_true (fun o => o.ep == e && o.dev == x.dev && o.uri == x.uri && o.iface == i) h
    dsimp only [Out.bind]
    rw [e1]
    refine ⟨_, rfl, addObs_ok i1 ex ?_⟩
    refine Nat.lt_of_le_of_lt ?_ m
    exact List.Sublist.length_le (List.Sublist.filter _ List.filter_sublist)
  · exact ⟨s, rfl, h⟩

theorem unlist_ok {s : St} (h : Inv s) {a : Nat} (ht : ∀ c, a ∉ s.links c) : Inv (unlist a s) := by
  have back : ∀ b, Listed (unlist a s) b → Listed s b := fun b lb => by
    rcases lb with l | l | l
    · exact .inl (List.mem_filter.mp l).1
    · exact .inr (.inl (List.mem_filter.mp l).1)
    · exact .inr (.inr l)
  exact { h with
    appv := fun b q => h.appv b (List.mem_filter.mp q).1
    delv := fun b q => h.delv b (List.mem_filter.mp q).1
    uniq := fun b c x y lb lc => h.uniq b c x y (back b lb) (back c lc)
    cbv := fun b q => h.cbv b (List.mem_filter.mp q).1
    cbn := h.cbn.filter _
    tgt := fun c t q => by
      refine ⟨?_, (h.tgt c t q).2⟩
      have hta : (t != a) = true := by
        have : t ≠ a := fun w => ht c (w ▸ q)
        simpa using this
      rcases (h.tgt c t q).1 with l | l | l
      · exact .inl (List.mem_filter.mpr ⟨l, hta⟩)
      · exact .inr (.inl (List.mem_filter.mpr ⟨l, hta⟩))
      · exact .inr (.inr l) }

theorem delete_ok {s : St} (h : Inv s) {a : Nat} {x : Obj} (e : s.heap a = some x) (hx : x.col = false) :
    ∃ n b, delete a s = .ok { s with
        heap := put s.heap a none, links := fun c => (s.links c).erase a, nobs := n,
        app := s.app.filter fun q => q != a, del := s.del.filter fun q => q != a,
        obs := s.obs.filter fun o => !(o.res == a), cbs := b,
        out := s.out ++ (s.obs.filter fun o => o.res == a).map fun o => .gone o.id o.ep } ∧
      Inv { s with
        heap := put s.heap a none, links := fun c => (s.links c).erase a, nobs := n,
        app := s.app.filter fun q => q != a, del := s.del.filter fun q => q != a,
        obs := s.obs.filter fun o => !(o.res == a), cbs := b,
        out := s.out ++ (s.obs.filter fun o => o.res == a).map fun o => .gone o.id o.ep } ∧
      ∀ f, f ∈ b ↔ f.data ≠ a ∧ (f ∈ s.cbs ∨ (f.fn = .ll ∧ a ∈ s.links f.data)) := by
  obtain ⟨k, b, e1, i1, hk, hb⟩ := dropLinks_ok s.cols h e fun c hc => hc
  have hk' : k = fun c => (s.links c).erase a := by
    funext c
    rw [hk c]
    split
    · rfl
    next hc =>
      cases hl : s.links c with
      | nil => rfl
      | cons t l => exact absurd (h.lnk c (by rw [hl]; exact List.cons_ne_nil _ _)) hc
  subst hk'
  have ht : ∀ c, a ∉ (s.links c).erase a := fun c => (h.lnd c).not_mem_erase
  have nc : a ∉ s.cols := fun q => by
    obtain ⟨y, ey, hy⟩ := h.colv a q
    rw [e] at ey
    cases ey
    rw [hx] at hy
    cases hy
  have i2 := unlist_ok (a := a) i1 ht
  -- the observers
  have i3 : ∃ n, endObs a x (unlist a { s with links := fun c => (s.links c).erase a, cbs := b }) =
      .ok { (unlist a { s with links := fun c => (s.links c).erase a, cbs := b }) with
        nobs := n, obs := s.obs.filter fun o => !(o.res == a), out := s.out ++ (s.obs.filter fun o => o.res == a).map fun o => .gone o.id o.ep } ∧
      Inv { (unlist a { s with links := fun c => (s.links c).erase a, cbs := b }) with
        nobs := n, obs := s.obs.filter fun o => !(o.res == a), out := s.out ++ (s.obs.filter fun o => o.res == a).map fun o => .gone o.id o.ep } := by
    obtain ⟨n, e2, i2'⟩ := removeBy_ok gone_true (fun o => o.res == a && o.uri == x.uri) i2
    have hp : ∀ o ∈ s.obs, (o.res == a && o.uri == x.uri) = (o.res == a) := by
      intro o ho
      cases hr : o.res == a with
      | false => rfl
      | true =>
        obtain ⟨z, ez, -, eu⟩ := h.obsv o ho
        rw [eq_of_beq hr, e] at ez
        cases ez
        rw [eu, beq_self_eq_true]; rfl
    have h1 : (s.obs.filter fun o => o.res == a && o.uri == x.uri) = s.obs.filter fun o => o.res == a := List.filter_congr hp
    have h2 : (s.obs.filter fun o => !(o.res == a && o.uri == x.uri)) = s.obs.filter fun o => !(o.res == a) :=
      List.filter_congr fun o ho => by rw [hp o ho]
    have h3 : ((s.obs.filter fun o => o.res == a).flatMap fun o => [Sent.gone o.id o.ep]) =
        (s.obs.filter fun o => o.res == a).map fun o => .gone o.id o.ep := by
      rw [← List.map_eq_flatMap]
    change removeBy _ _ (unlist a { s with links := fun c => (s.links c).erase a, cbs := b }) =
      .ok { (unlist a { s with links := fun c => (s.links c).erase a, cbs := b }) with
        nobs := n, obs := s.obs.filter fun o => !(o.res == a && o.uri == x.uri),
        out := s.out ++ (s.obs.filter fun o => o.res == a && o.uri == x.uri).flatMap fun o => [Sent.gone o.id o.ep] } at e2
    change Inv { (unlist a { s with links := fun c => (s.links c).erase a, cbs := b }) with
        nobs := n, obs := s.obs.filter fun o => !(o.res == a && o.uri == x.uri),
        out := s.out ++ (s.obs.filter fun o => o.res == a && o.uri == x.uri).flatMap fun o => [Sent.gone o.id o.ep] } at i2'
    rw [h1, h2, h3] at e2 i2'
    unfold endObs
    by_cases hz : (unlist a { s with links := fun c => (s.links c).erase a, cbs := b }).nobs a = 0
    · rw [if_pos hz]
      have h0 : (s.obs.filter fun o => o.res == a) = [] := by
        change s.nobs a = 0 at hz
        rw [h.cnt a x e, List.length_eq_zero_iff] at hz
        exact hz
      have h4 : (s.obs.filter fun o => !(o.res == a)) = s.obs := by
        rw [List.filter_eq_self]
        intro o ho
        rw [List.filter_eq_nil_iff] at h0
        have := h0 o ho
        simpa using this
      refine ⟨s.nobs, ?_⟩
      rw [h0, h4]
      have h5 : ({ (unlist a { s with links := fun c => (s.links c).erase a, cbs := b }) with
          nobs := s.nobs, obs := s.obs, out := s.out ++ ([] : List Obs).map fun o => .gone o.id o.ep } : St) =
          unlist a { s with links := fun c => (s.links c).erase a, cbs := b } := by
        rw [List.map_nil, List.append_nil]
        rfl
      rw [h5]
      exact ⟨rfl, i2⟩
    · rw [if_neg hz]
      exact ⟨n, e2, i2'⟩
  obtain ⟨n, e3, i3⟩ := i3
  refine ⟨n, b.filter fun c => c != ⟨.delete, a⟩ && c != ⟨.changed, a⟩ && c != ⟨.observers, a⟩, ?_, ?_, ?_⟩
  · unfold delete
    rw [e]
    dsimp only
    rw [hx, if_neg Bool.false_ne_true, e1]
    dsimp only [Out.bind]
    rw [e3]
    rfl
  · refine i3.free (a := a) ?_ ?_ ?_ ht
    · rintro (l | l | l)
      · have := (List.mem_filter.mp l).2
        simp at this
      · have := (List.mem_filter.mp l).2
        simp at this
      · exact nc l
    · intro o ho
      have := (List.mem_filter.mp ho).2
      simpa using this
    · exact fun f hf => key f hf e hx i1
  · intro f
    rw [List.mem_filter]
    constructor
    · intro hf
      have hd := key f (List.mem_filter.mpr hf) e hx i1
      refine ⟨hd, ?_⟩
      rcases (hb f).mp hf.1 with q | ⟨q1, -, q3⟩
      · exact .inl q
      · exact .inr ⟨q1, q3⟩
    · rintro ⟨hd, hf⟩
      refine ⟨(hb f).mpr ?_, ?_⟩
      · rcases hf with q | ⟨q1, q3⟩
        · exact .inl q
        · exact .inr ⟨q1, h.lnk _ (fun w => by rw [w] at q3; cases q3), q3⟩
      · have : ∀ g, (f != ⟨g, a⟩) = true := fun g => by
          have : f ≠ ⟨g, a⟩ := fun w => hd (by rw [w])
          simpa using this
        rw [this, this, this]; rfl
where
  key {s : St} {a : Nat} {x : Obj} {k : Nat → List Nat} {b : List Cb} (f : Cb)
      (hf : f ∈ b.filter fun c => c != ⟨.delete, a⟩ && c != ⟨.changed, a⟩ && c != ⟨.observers, a⟩) (e : s.heap a = some x) (hx : x.col = false)
      (i1 : Inv { s with links := k, cbs := b }) : f.data ≠ a := by
    intro hd
    obtain ⟨h1, h2⟩ := List.mem_filter.mp hf
    obtain ⟨y, ey, hy, -⟩ := i1.cbv f h1
    change s.heap f.data = some y at ey
    rw [hd, e] at ey
    cases ey
    obtain ⟨g, d⟩ := f
    dsimp only at hd hy
    subst hd
    cases g
    · simp at h2
    · simp at h2
    · simp at h2
    · rw [hx] at hy; exact nomatch hy rfl
    · rw [hx] at hy; exact nomatch hy rfl
    · rw [hx] at hy; exact nomatch hy rfl

theorem later_ok {s : St} (h : Inv s) {a : Nat} {x : Obj} (e : s.heap a = some x) (hx : x.col = false) (m : a ∈ s.app ∨ a ∈ s.del) :
    ∃ s', later a s = .ok s' ∧ Inv s' := by
  unfold later
  rw [e]
  dsimp only
  rw [hx, if_neg Bool.false_ne_true]
  refine ⟨_, rfl, Inv.sched ?_ (x := x) e (fun q => nomatch q) (fun _ => hx)⟩
  generalize hl : (if s.del.contains a then s.del else s.del ++ [a]) = l
  have hm : ∀ b, b ∈ l ↔ b ∈ s.del ∨ b = a := by
    intro b
    rw [← hl]
    split
    next q =>
      rw [List.contains_iff_mem] at q
      exact ⟨.inl, fun w => w.elim id fun w => w ▸ q⟩
    · rw [List.mem_append, List.mem_singleton]
  have la : Listed s a := m.elim .inl fun q => .inr (.inl q)
  have back : ∀ b, Listed ({ s with app := s.app.filter fun b => b != a, del := l } : St) b → Listed s b := fun b lb => by
    rcases lb with q | q | q
    · exact .inl (List.mem_filter.mp q).1
    · rcases (hm b).mp q with q | q
      · exact .inr (.inl q)
      · exact q ▸ la
    · exact .inr (.inr q)
  exact { h with
    appv := fun b q => h.appv b (List.mem_filter.mp q).1
    delv := fun b q => by
      rcases (hm b).mp q with q | q
      · exact h.delv b q
      · rw [q]; exact ⟨x, e, hx⟩
    uniq := fun b c y z lb lc => h.uniq b c y z (back b lb) (back c lc)
    tgt := fun c t q => by
      refine ⟨?_, (h.tgt c t q).2⟩
      by_cases hta : t = a
      · exact .inr (.inl ((hm t).mpr (.inr hta)))
      · rcases (h.tgt c t q).1 with w | w | w
        · exact .inl (List.mem_filter.mpr ⟨w, by simpa using hta⟩)
        · exact .inr (.inl ((hm t).mpr (.inl w)))
        · exact .inr (.inr w) }

theorem deleteCol_ok {s : St} (h : Inv s) {c : Nat} {y : Obj} (e : s.heap c = some y) (hy : y.col = true) (m : Minded s (.deleteCol c)) :
    deleteCol c s = .ok { s with
        cols := s.cols.filter (fun b => b != c), links := put s.links c [],
        cbs := s.cbs.filter (fun f => !(f.data == c)), heap := put s.heap c none } ∧
      Inv { s with
        cols := s.cols.filter (fun b => b != c), links := put s.links c [],
        cbs := s.cbs.filter (fun f => !(f.data == c)), heap := put s.heap c none } := by
  obtain ⟨mo, mb, ml⟩ := m
  have hcb : (s.cbs.filter fun f => f != ⟨.batch, c⟩ && f != ⟨.base, c⟩ && f != ⟨.ll, c⟩) = s.cbs.filter fun f => !(f.data == c) := by
    apply List.filter_congr
    intro f hf
    obtain ⟨g, d⟩ := f
    by_cases hd : d = c
    · subst hd
      obtain ⟨z, ez, -, hz⟩ := h.cbv _ hf
      change s.heap d = some z at ez
      rw [e] at ez
      cases ez
      obtain ⟨m1, m2⟩ := mb _ hf rfl
      cases g
      · exact absurd rfl m1
      · exact absurd rfl m2
      · rw [hy] at hz; exact nomatch hz rfl
      · simp
      · simp
      · simp
    · have : ∀ q, ((⟨g, d⟩ : Cb) != ⟨q, c⟩) = true := fun q => by simpa using fun _ => hd
      rw [this, this, this]
      simpa using hd
  refine ⟨?_, ?_⟩
  · unfold deleteCol
    rw [e]
    dsimp only
    rw [if_neg (by rw [hy]; exact Bool.false_ne_true), hcb]
  · have sub : ∀ t, t ≠ c → Listed s t → Listed ({ s with cols := s.cols.filter fun b => b != c } : St) t := fun t tc l => by
      rcases l with l | l | l
      · exact .inl l
      · exact .inr (.inl l)
      · exact .inr (.inr (List.mem_filter.mpr ⟨l, by simpa using tc⟩))
    have back : ∀ t, Listed ({ s with cols := s.cols.filter fun b => b != c } : St) t → Listed s t := fun t l => by
      rcases l with l | l | l
      · exact .inl l
      · exact .inr (.inl l)
      · exact .inr (.inr (List.mem_filter.mp l).1)
    have nl : ∀ d t, t ∈ put s.links c [] d → d ≠ c ∧ t ∈ s.links d := by
      intro d t q
      unfold put at q
      split at q
      · cases q
      next w => exact ⟨w, q⟩
    have i1 : Inv { s with
        cols := s.cols.filter (fun b => b != c), links := put s.links c [],
        cbs := s.cbs.filter fun f => !(f.data == c) } :=
      { h with
        colv := fun b q => h.colv b (List.mem_filter.mp q).1
        uniq := fun a b x z la lb => h.uniq a b x z (back a la) (back b lb)
        cbv := fun b q => h.cbv b (List.mem_filter.mp q).1
        cbn := h.cbn.filter _
        lnk := fun d q => by
          show d ∈ s.cols.filter fun b => b != c
          change put s.links c [] d ≠ [] at q
          unfold put at q
          split at q
          · exact absurd rfl q
          next w => exact List.mem_filter.mpr ⟨h.lnk d q, by simpa using w⟩
        tgt := fun d t q => by
          obtain ⟨w, q⟩ := nl d t q
          exact ⟨sub t (fun r => ml d w (r ▸ q)) (h.tgt d t q).1, (h.tgt d t q).2⟩
        lnd := fun d => by
          show (put s.links c [] d).Nodup
          unfold put
          split
          · exact List.nodup_nil
          · exact h.lnd d }
    refine i1.free (a := c) ?_ mo ?_ ?_
    · rintro (l | l | l)
      · obtain ⟨x, ex, hx⟩ := h.appv c l
        rw [e] at ex
        cases ex
        rw [hy] at hx
        cases hx
      · obtain ⟨x, ex, hx⟩ := h.delv c l
        rw [e] at ex
        cases ex
        rw [hy] at hx
        cases hx
      · have := (List.mem_filter.mp l).2
        simp at this
    · intro b q
      have := (List.mem_filter.mp q).2
      simpa using this
    · intro d q
      obtain ⟨w, q⟩ := nl d c q
      exact ml d w q

theorem fire_ok {s : St} (h : Inv s) (k : Nat) : ∃ s', fire k s = .ok s' ∧ Inv s' := by
  unfold fire
  cases hb : s.cbs[k]? with
  | none => exact ⟨s, rfl, h⟩
  | some b =>
    obtain ⟨x, ex, h1, h2⟩ := h.cbv b (List.mem_of_getElem? hb)
    have i : Inv { s with cbs := s.cbs.eraseIdx k } := h.newCbs ((List.eraseIdx_sublist _ _).nodup h.cbn) fun f hf => .inl (List.mem_of_mem_eraseIdx hf)
    dsimp only
    unfold call
    obtain ⟨g, d⟩ := b
    dsimp only at ex h1 h2 ⊢
    cases g with
    | changed => exact ⟨_, (changed_ok i ex).1, (changed_ok i ex).2⟩
    | observers => exact ⟨_, (changed_ok i ex).1, (changed_ok i ex).2⟩
    | delete =>
      obtain ⟨n, b, e1, i1, -⟩ := delete_ok i ex (h2 rfl)
      exact ⟨_, e1, i1⟩
    | ll =>
      obtain ⟨o, e1, i1⟩ := noteCol_ok i ex .ll
      dsimp only
      rw [e1]
      exact ⟨_, rfl, i1.sched (x := x) ex (fun _ => h1 rfl) (fun q => nomatch q)⟩
    | base =>
      obtain ⟨o, e1, i1⟩ := noteCol_ok i ex .base
      exact ⟨_, e1, i1⟩
    | batch =>
      obtain ⟨o, e1, i1⟩ := noteCol_ok i ex .batch
      exact ⟨_, e1, i1⟩

theorem step_ok {s : St} (h : Inv s) {op : Op} (w : Own s op) (m : Minded s op) : ∃ s', step s op = .ok s' ∧ Inv s' := by
  cases op with
  | new a c d u => exact ⟨_, rfl, new_ok h a c d u⟩
  | add a => obtain ⟨x, e⟩ := w; exact add_ok h e
  | link c a => exact link_ok h m
  | unlink c a => obtain ⟨y, e, hy⟩ := w; exact unlink_ok h e hy
  | observe e i a => exact observe_ok h m
  | cancel id => obtain ⟨n, e, i⟩ := removeBy_ok silent_true (fun o => o.id == id) h; exact ⟨_, e, i⟩
  | leave p => obtain ⟨n, e, i⟩ := removeBy_ok silent_true (fun o => o.ep == p) h; exact ⟨_, e, i⟩
  | reset d => obtain ⟨n, e, i⟩ := removeBy_ok unavailable_true (fun o => o.dev == d) h; exact ⟨_, e, i⟩
  | changed a => obtain ⟨x, e⟩ := w; exact ⟨_, (changed_ok h e).1, (changed_ok h e).2⟩
  | changedLater a =>
    obtain ⟨x, e⟩ := w
    refine ⟨_, ?_, h.sched (f := .changed) e (fun q => nomatch q) (fun q => nomatch q)⟩
    show changedLater a s = _
    unfold changedLater
    rw [e]
  | observersLater a =>
    obtain ⟨x, e⟩ := w
    show ∃ s', observersLater a s = .ok s' ∧ Inv s'
    unfold observersLater
    rw [e]
    dsimp only
    split
    · exact ⟨_, rfl, h.sched e (fun q => nomatch q) (fun q => nomatch q)⟩
    · exact ⟨s, rfl, h⟩
  | wrote c =>
    obtain ⟨y, e, hy⟩ := h.colv c w
    show ∃ s', wrote c s = .ok s' ∧ Inv s'
    unfold wrote
    rw [e]
    dsimp only
    rw [if_pos hy]
    exact ⟨_, rfl, h.sched e (fun _ => hy) (fun q => nomatch q)⟩
  | delete a =>
    obtain ⟨x, e, hx⟩ := w
    obtain ⟨n, b, e1, i1, -⟩ := delete_ok h e hx
    exact ⟨_, e1, i1⟩
  | later a => obtain ⟨x, e, hx⟩ := w; exact later_ok h e hx m
  | deleteCol c => obtain ⟨y, e, hy⟩ := w; exact ⟨_, (deleteCol_ok h e hy m).1, (deleteCol_ok h e hy m).2⟩
  | fire k => exact fire_ok h k

theorem reach_inv {s : St} (r : Reach s) : Inv s := by
  induction r with
  | init => exact init_inv
  | step _ w m hs ih =>
    obtain ⟨s', e, i⟩ := step_ok ih w m
    rw [hs] at e
    cases e
    exact i

end Verif.Life
