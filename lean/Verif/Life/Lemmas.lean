import Verif.Life.Spec

namespace Verif.Life

/-- Callbacks of collections. -/
def Fn.forCol : Fn → Bool
  | .ll | .base | .batch => true
  | _ => false

/-- The invariant. -/
structure Inv (s : St) : Prop where
  appv : ∀ a ∈ s.app, ∃ x, s.heap a = some x ∧ x.col = false
  delv : ∀ a ∈ s.del, ∃ x, s.heap a = some x ∧ x.col = false
  colv : ∀ a ∈ s.cols, ∃ x, s.heap a = some x ∧ x.col = true
  uniq : ∀ a b x y, Listed s a → Listed s b → s.heap a = some x → s.heap b = some y → x.dev = y.dev → x.uri = y.uri → a = b
  obsv : ∀ o ∈ s.obs, ∃ x, s.heap o.res = some x ∧ x.gen = o.gen ∧ x.uri = o.uri
  cnt : ∀ a x, s.heap a = some x → s.nobs a = (s.obs.filter fun o => o.res == a).length
  lim : ∀ a, (s.obs.filter fun o => o.res == a).length ≤ 255
  ids : (s.obs.map (·.id)).Nodup
  idlt : ∀ o ∈ s.obs, o.id < s.nid
  cbv : ∀ b ∈ s.cbs, ∃ x, s.heap b.data = some x ∧ (b.fn.forCol = true → x.col = true) ∧ (b.fn = .delete → x.col = false)
  cbn : s.cbs.Nodup
  lnk : ∀ c, s.links c ≠ [] → c ∈ s.cols
  tgt : ∀ c t, t ∈ s.links c → Listed s t ∧ (s.heap c).map Obj.dev = (s.heap t).map Obj.dev
  lnd : ∀ c, (s.links c).Nodup
  tru : Truthful s.out

theorem Inv.listed {s : St} (h : Inv s) {a : Nat} (l : Listed s a) : ∃ x, s.heap a = some x := by
  rcases l with l | l | l
  · exact let ⟨x, e, _⟩ := h.appv a l; ⟨x, e⟩
  · exact let ⟨x, e, _⟩ := h.delv a l; ⟨x, e⟩
  · exact let ⟨x, e, _⟩ := h.colv a l; ⟨x, e⟩

theorem Inv.sound {s : St} (h : Inv s) : Sound s where
  obs o ho := let ⟨x, a, b, _⟩ := h.obsv o ho; ⟨x, a, b⟩
  cbs b hb := let ⟨x, a, _⟩ := h.cbv b hb; ⟨x, a⟩
  links c _ _ t ht := h.listed (h.tgt c t ht).1
  lists _ l := h.listed l

theorem init_inv : Inv init where
  appv a h := nomatch h
  delv a h := nomatch h
  colv a h := nomatch h
  uniq a b x y h := by rcases h with h | h | h <;> nomatch h
  obsv a h := nomatch h
  cnt a x h := nomatch h
  lim a := Nat.zero_le _
  ids := List.nodup_nil
  idlt a h := nomatch h
  cbv a h := nomatch h
  cbn := List.nodup_nil
  lnk c h := absurd rfl h
  tgt c t h := nomatch h
  lnd c := List.nodup_nil
  tru n e g k h := nomatch h

theorem Truthful.append {l m : List Sent} (h : Truthful l) (k : Truthful m) : Truthful (l ++ m) := by
  intro n e g i hi
  rcases List.mem_append.mp hi with hi | hi
  · exact h n e g i hi
  · exact k n e g i hi

/-- More was sent. -/
theorem Inv.more {s : St} (h : Inv s) {l : List Sent} (k : Truthful l) : Inv { s with out := s.out ++ l } :=
  { h with tru := h.tru.append k }

/-- Other callbacks. -/
theorem Inv.newCbs {s : St} (h : Inv s) {l : List Cb}
    (hn : l.Nodup) (k : ∀ b ∈ l, b ∈ s.cbs ∨ ∃ x, s.heap b.data = some x ∧ (b.fn.forCol = true → x.col = true) ∧ (b.fn = .delete → x.col = false)) :
    Inv { s with cbs := l } :=
  { h with cbv := fun b hb => (k b hb).elim (h.cbv b) id, cbn := hn }

theorem Inv.sched {s : St} (h : Inv s) {f : Fn} {a : Nat} {x : Obj} (e : s.heap a = some x) (h1 : f.forCol = true → x.col = true)
    (h2 : f = .delete → x.col = false) : Inv (schedule f a s) := by
  refine h.newCbs (List.nodup_append.mpr ⟨h.cbn.filter _, List.nodup_cons.mpr ⟨List.not_mem_nil, List.nodup_nil⟩, ?_⟩) ?_
  · intro c hc d hd q
    rw [List.mem_singleton] at hd
    subst hd
    have := (List.mem_filter.mp hc).2
    rw [q] at this
    simp at this
  intro b hb
  rcases List.mem_append.mp hb with hb | hb
  · exact .inl (List.mem_filter.mp hb).1
  · rw [List.mem_singleton] at hb
    subst hb
    exact .inr ⟨x, e, h1, h2⟩

theorem Inv.truNotes {s : St} (h : Inv s) {a : Nat} {x : Obj} (e : s.heap a = some x) {p : Obs → Bool}
    (k : ∀ o, p o = true → o.res = a) : Truthful (notes x.gen (s.obs.filter p)) := by
  intro n e' g i hi
  obtain ⟨o, ho, eq⟩ := List.mem_map.mp hi
  obtain ⟨h1, h2⟩ := List.mem_filter.mp ho
  obtain ⟨y, hy, hg, -⟩ := h.obsv o h1
  rw [k o h2, e] at hy
  cases hy
  injection eq with _ _ e3 e4
  rw [← e3, ← e4, hg]

theorem derefs_ok {s : St} {l : List Nat} (h : ∀ a ∈ l, ∃ x, s.heap a = some x) : derefs s l = .ok () := by
  unfold derefs
  rw [if_pos]
  rw [List.all_eq_true]
  intro a ha
  obtain ⟨x, e⟩ := h a ha
  rw [e]; rfl

theorem Inv.derefLinks {s : St} (h : Inv s) (c : Nat) : derefs s (s.links c) = .ok () :=
  derefs_ok fun t ht => h.listed (h.tgt c t ht).1

/-! ### Observers -/

theorem count_remove (a i : Nat) : ∀ (l : List Obs), (l.map (·.id)).Nodup → ∀ o ∈ l, o.id = i →
    ((l.filter fun p => p.id != i).filter fun p => p.res == a).length + (if o.res = a then 1 else 0) =
      (l.filter fun p => p.res == a).length
  | [], _, o, ho, _ => nomatch ho
  | q :: l, hn, o, ho, hi => by
    rw [List.map_cons, List.nodup_cons] at hn
    rcases List.mem_cons.mp ho with ho | ho
    · subst ho
      have : (l.filter fun p => p.id != i) = l := by
        rw [List.filter_eq_self]
        intro p hp
        have : p.id ≠ i := by
          intro e
          apply hn.1
          rw [hi, ← e]
          exact List.mem_map_of_mem hp
        simpa using this
      rw [List.filter_cons_of_neg (by simp [hi]), this, List.filter_cons]
      by_cases hr : o.res = a <;> simp [hr]
    · have hq : q.id ≠ i := by
        intro e
        apply hn.1
        rw [e, ← hi]
        exact List.mem_map_of_mem ho
      have ih := count_remove a i l hn.2 o ho hi
      rw [List.filter_cons_of_pos (by simpa using hq), List.filter_cons, List.filter_cons]
      by_cases hr : (q.res == a) = true
      · rw [if_pos hr, if_pos hr, List.length_cons, List.length_cons]
        omega
      · rw [if_neg hr, if_neg hr]
        exact ih

theorem removeObs_ok {s : St} (h : Inv s) {o : Obs} (ho : o ∈ s.obs) :
    ∃ n, removeObs o s = .ok { s with nobs := n, obs := s.obs.filter fun p => p.id != o.id } ∧
      Inv { s with nobs := n, obs := s.obs.filter fun p => p.id != o.id } := by
  obtain ⟨x, e, -⟩ := h.obsv o ho
  refine ⟨put s.nobs o.res ((s.nobs o.res + 255) % 256), by unfold removeObs; rw [e], ?_⟩
  have sub : ∀ p ∈ s.obs.filter (fun p => p.id != o.id), p ∈ s.obs := fun p hp => (List.mem_filter.mp hp).1
  have hc : ∀ a, ((s.obs.filter fun p => p.id != o.id).filter fun p => p.res == a).length + (if o.res = a then 1 else 0) =
      (s.obs.filter fun p => p.res == a).length := fun a => count_remove a o.id s.obs h.ids o ho rfl
  exact { h with
    obsv := fun p hp => h.obsv p (sub p hp)
    cnt := by
      intro a y hy
      have h1 := hc a
      have h2 := h.cnt a y hy
      have h3 := h.lim a
      show put s.nobs o.res ((s.nobs o.res + 255) % 256) a = ((s.obs.filter fun p => p.id != o.id).filter fun p => p.res == a).length
      unfold put
      by_cases ha : a = o.res
      · subst ha
        rw [if_pos rfl] at h1 ⊢
        omega
      · rw [if_neg ha]
        rw [if_neg (fun e => ha e.symm)] at h1
        omega
    lim := by
      intro a
      have h1 := hc a
      have h3 := h.lim a
      show ((s.obs.filter fun p => p.id != o.id).filter fun p => p.res == a).length ≤ 255
      omega
    ids := by
      refine List.Sublist.nodup ?_ h.ids
      exact List.Sublist.map _ List.filter_sublist
    idlt := fun p hp => h.idlt p (sub p hp) }

theorem removeList_ok {f : Obs → List Sent} (hf : ∀ o, Truthful (f o)) : ∀ (l : List Obs) {s : St}, Inv s → (∀ o ∈ l, o ∈ s.obs) →
    (l.map (·.id)).Nodup → ∃ n, removeList f l s = .ok { s with nobs := n, obs := s.obs.filter fun p => !(l.map (·.id)).contains p.id,
                                                                out := s.out ++ l.flatMap f } ∧
      Inv { s with nobs := n, obs := s.obs.filter fun p => !(l.map (·.id)).contains p.id, out := s.out ++ l.flatMap f }
  | [], s, h, _, _ => by
    refine ⟨s.nobs, ?_⟩
    have : ({ s with nobs := s.nobs, obs := s.obs.filter fun p => !(([] : List Obs).map (·.id)).contains p.id,
                     out := s.out ++ ([] : List Obs).flatMap f } : St) = s := by
      have h1 : (s.obs.filter fun p => !(([] : List Obs).map (·.id)).contains p.id) = s.obs := by
        rw [List.filter_eq_self]; intro a _; rfl
      rw [h1, List.flatMap_nil, List.append_nil]
    rw [this]
    exact ⟨rfl, h⟩
  | o :: l, s, h, hm, hn => by
    rw [List.map_cons, List.nodup_cons] at hn
    have h1 := h.more (hf o)
    obtain ⟨n, e1, i1⟩ := removeObs_ok h1 (hm o (List.mem_cons_self ..))
    have hm' : ∀ p ∈ l, p ∈ s.obs.filter fun p => p.id != o.id := by
      intro p hp
      refine List.mem_filter.mpr ⟨hm p (List.mem_cons_of_mem _ hp), ?_⟩
      have : p.id ≠ o.id := fun e => hn.1 (e ▸ List.mem_map_of_mem hp)
      simpa using this
    obtain ⟨m, e2, i2⟩ := removeList_ok hf l i1 hm' hn.2
    have eq : ({ s with nobs := m, obs := (s.obs.filter fun p => p.id != o.id).filter fun p => !(l.map (·.id)).contains p.id,
                        out := s.out ++ f o ++ l.flatMap f } : St) =
        { s with nobs := m, obs := s.obs.filter fun p => !((o :: l).map (·.id)).contains p.id, out := s.out ++ (o :: l).flatMap f } := by
      congr 1
      · rw [List.filter_filter]
        congr 1
        funext p
        rw [List.map_cons, List.contains_cons, Bool.not_or, Bool.and_comm]
        rfl
      · rw [List.flatMap_cons, List.append_assoc]
    refine ⟨m, ?_, ?_⟩
    · rw [removeList, e1]
      show removeList f l _ = _
      rw [e2]
      exact congrArg Out.ok eq
    · rw [← eq]
      exact i2

/-- Removing the observers that match. -/
theorem removeBy_ok {f : Obs → List Sent} (hf : ∀ o, Truthful (f o)) (p : Obs → Bool) {s : St} (h : Inv s) :
    ∃ n, removeBy p f s = .ok { s with nobs := n, obs := s.obs.filter fun o => !p o, out := s.out ++ (s.obs.filter p).flatMap f } ∧
      Inv { s with nobs := n, obs := s.obs.filter fun o => !p o, out := s.out ++ (s.obs.filter p).flatMap f } := by
  have hn : ((s.obs.filter p).map (·.id)).Nodup := List.Sublist.nodup (List.Sublist.map _ List.filter_sublist) h.ids
  obtain ⟨n, e, i⟩ := removeList_ok hf (s.obs.filter p) h (fun o ho => (List.mem_filter.mp ho).1) hn
  have : (s.obs.filter fun q => !((s.obs.filter p).map (·.id)).contains q.id) = s.obs.filter fun o => !p o := by
    apply List.filter_congr
    intro o ho
    congr 1
    by_cases hp : p o = true
    · rw [hp, List.contains_iff_mem]
      exact List.mem_map_of_mem (List.mem_filter.mpr ⟨ho, hp⟩)
    · rw [Bool.not_eq_true] at hp
      rw [hp, ← Bool.not_eq_true, List.contains_iff_mem]
      intro hm
      obtain ⟨q, hq, eq⟩ := List.mem_map.mp hm
      obtain ⟨h1, h2⟩ := List.mem_filter.mp hq
      have : q = o := by
        have hnd := h.ids
        exact inj_of_nodup hnd h1 ho eq
      rw [this, hp] at h2
      cases h2
  rw [this] at e i
  exact ⟨n, e, i⟩
where
  inj_of_nodup {l : List Obs} (hn : (l.map (·.id)).Nodup) {a b : Obs} (ha : a ∈ l) (hb : b ∈ l) (e : a.id = b.id) : a = b := by
    induction l with
    | nil => cases ha
    | cons c l ih =>
      rw [List.map_cons, List.nodup_cons] at hn
      rcases List.mem_cons.mp ha with ha | ha <;> rcases List.mem_cons.mp hb with hb | hb
      · rw [ha, hb]
      · exact absurd (by rw [← ha, e]; exact List.mem_map_of_mem (f := Obs.id) hb) hn.1
      · exact absurd (by rw [← hb, ← e]; exact List.mem_map_of_mem (f := Obs.id) ha) hn.1
      · exact ih hn.2 ha hb

theorem silent_true (o : Obs) : Truthful (silent o) := by intro n e g h k; cases k
theorem gone_true (o : Obs) : Truthful [Sent.gone o.id o.ep] := by
  intro n e g h k; rw [List.mem_singleton] at k; cases k
theorem unavailable_true (o : Obs) : Truthful [Sent.unavailable o.id o.ep] := by
  intro n e g h k; rw [List.mem_singleton] at k; cases k

/-! ### Notifications -/

theorem noteCol_ok {s : St} (h : Inv s) {c : Nat} {y : Obj} (e : s.heap c = some y) (i : Iface) :
    ∃ o, noteCol c i s = .ok { s with out := o } ∧ Inv { s with out := o } := by
  unfold noteCol
  rw [e]
  dsimp only
  rw [h.derefLinks c]
  refine ⟨_, rfl, h.more (h.truNotes e ?_)⟩
  intro o ho
  rw [Bool.and_eq_true] at ho
  exact eq_of_beq ho.1

theorem noteOwn_ok {s : St} (h : Inv s) {a : Nat} {x : Obj} (e : s.heap a = some x) :
    noteOwn a x s = .ok { s with out := s.out ++ notes x.gen (s.obs.filter fun o => o.res == a && (!x.col || o.iface == .base)) } ∧
      Inv { s with out := s.out ++ notes x.gen (s.obs.filter fun o => o.res == a && (!x.col || o.iface == .base)) } := by
  refine ⟨?_, h.more (h.truNotes e fun o ho => ?_)⟩
  · unfold noteOwn
    by_cases hz : s.nobs a = 0
    · rw [if_pos hz]
      have : (s.obs.filter fun o => o.res == a && (!x.col || o.iface == .base)) = [] := by
        rw [h.cnt a x e, List.length_eq_zero_iff, List.filter_eq_nil_iff] at hz
        rw [List.filter_eq_nil_iff]
        intro o ho
        have := hz o ho
        simp only [Bool.not_eq_true] at this ⊢
        rw [this, Bool.false_and]
      rw [this]
      show Out.ok s = .ok { s with out := s.out ++ [] }
      rw [List.append_nil]
    · rw [if_neg hz]
      dsimp only
      split
      · rw [h.derefLinks a]; rfl
      · rfl
  · rw [Bool.and_eq_true] at ho
    exact eq_of_beq ho.1

theorem noteLinkers_ok {s : St} (h : Inv s) (a d : Nat) :
    noteLinkers a d s = .ok { s with out := s.out ++ ((linkers s a d).takeWhile fun c => s.nobs c != 0).flatMap (batchOf s) } ∧
      Inv { s with out := s.out ++ ((linkers s a d).takeWhile fun c => s.nobs c != 0).flatMap (batchOf s) } := by
  refine ⟨?_, h.more ?_⟩
  · unfold noteLinkers
    rw [derefs_ok (l := s.cols) fun c hc => let ⟨x, e, _⟩ := h.colv c hc; ⟨x, e⟩]
    rfl
  · intro n e g i hi
    obtain ⟨c, -, hc⟩ := List.mem_flatMap.mp hi
    unfold batchOf at hc
    split at hc
    · cases hc
    next y ey =>
      refine h.truNotes ey (fun o ho => ?_) n e g i hc
      rw [Bool.and_eq_true] at ho
      exact eq_of_beq ho.1

theorem changed_ok {s : St} (h : Inv s) {a : Nat} {x : Obj} (e : s.heap a = some x) :
    changed a s = .ok { s with out := s.out ++ notes x.gen (s.obs.filter fun o => o.res == a && (!x.col || o.iface == .base)) ++
        ((linkers s a x.dev).takeWhile fun c => s.nobs c != 0).flatMap (batchOf s) } ∧
      Inv { s with out := s.out ++ notes x.gen (s.obs.filter fun o => o.res == a && (!x.col || o.iface == .base)) ++
        ((linkers s a x.dev).takeWhile fun c => s.nobs c != 0).flatMap (batchOf s) } := by
  obtain ⟨e1, i1⟩ := noteOwn_ok h e
  obtain ⟨e2, i2⟩ := noteLinkers_ok i1 a x.dev
  refine ⟨?_, i2⟩
  unfold changed
  rw [e]
  dsimp only
  rw [e1]
  exact e2

/-! ### Links -/

theorem insert_ok {h : Nat → Option Obj} (a u : Nat) : ∀ {l : List Nat}, (∀ t ∈ l, ∃ x, h t = some x) →
    ∃ k, insert h a u l = .ok k ∧ List.Perm k (a :: l)
  | [], _ => ⟨_, rfl, List.Perm.refl _⟩
  | t :: l, hl => by
    obtain ⟨x, e⟩ := hl t (List.mem_cons_self ..)
    rw [insert, e]
    dsimp only
    split
    · exact ⟨_, rfl, List.Perm.refl _⟩
    · obtain ⟨k, ek, pk⟩ := insert_ok a u (l := l) fun t ht => hl t (List.mem_cons_of_mem _ ht)
      rw [ek]
      exact ⟨_, rfl, (List.Perm.cons t pk).trans (List.Perm.swap a t l)⟩

theorem eraseUri_ok {h : Nat → Option Obj} {a u : Nat} : ∀ {l : List Nat}, (∀ t ∈ l, ∃ x, h t = some x) →
    (∀ t ∈ l, ∀ x, h t = some x → (x.uri = u ↔ t = a)) → eraseUri h u l = .ok (l.erase a)
  | [], _, _ => rfl
  | t :: l, hl, hu => by
    obtain ⟨x, e⟩ := hl t (List.mem_cons_self ..)
    have := hu t (List.mem_cons_self ..) x e
    rw [eraseUri, e]
    dsimp only
    by_cases ht : t = a
    · rw [if_pos (this.mpr ht), ht, List.erase_cons_head]
    · rw [if_neg (fun q => ht (this.mp q)), eraseUri_ok (fun t ht => hl t (List.mem_cons_of_mem _ ht))
        (fun t ht => hu t (List.mem_cons_of_mem _ ht)), List.erase_cons_tail (by simpa using ht)]
      rfl

/-- Other links. -/
theorem Inv.newLinks {s : St} (h : Inv s) {c : Nat} {k : List Nat} (hc : k ≠ [] → c ∈ s.cols) (hn : k.Nodup)
    (ht : ∀ t ∈ k, Listed s t ∧ (s.heap c).map Obj.dev = (s.heap t).map Obj.dev) : Inv { s with links := put s.links c k } :=
  { h with
    lnk := by
      intro d hd
      show d ∈ s.cols
      change put s.links c k d ≠ [] at hd
      unfold put at hd
      split at hd
      next e => rw [e]; exact hc hd
      · exact h.lnk d hd
    tgt := by
      intro d t hd
      change t ∈ put s.links c k d at hd
      show Listed s t ∧ (s.heap d).map Obj.dev = (s.heap t).map Obj.dev
      unfold put at hd
      split at hd
      next e => rw [e]; exact ht t hd
      · exact h.tgt d t hd
    lnd := by
      intro d
      show (put s.links c k d).Nodup
      unfold put
      split
      · exact hn
      · exact h.lnd d }

theorem Inv.erased {s : St} (h : Inv s) (c a : Nat) : Inv { s with links := put s.links c ((s.links c).erase a) } := by
  refine h.newLinks (fun hk => h.lnk c ?_) ((h.lnd c).erase a) fun t ht => h.tgt c t (List.mem_of_mem_erase ht)
  intro e
  rw [e] at hk
  exact hk rfl

theorem dropLinks_ok {a : Nat} {x : Obj} : ∀ (l : List Nat) {s : St}, Inv s → s.heap a = some x → (∀ c ∈ l, c ∈ s.cols) →
    ∃ k b, dropLinks a x l s = .ok { s with links := k, cbs := b } ∧ Inv { s with links := k, cbs := b } ∧
      (∀ c, k c = if c ∈ l then (s.links c).erase a else s.links c) ∧
      (∀ f, f ∈ b ↔ f ∈ s.cbs ∨ (f.fn = .ll ∧ f.data ∈ l ∧ a ∈ s.links f.data))
  | [], s, h, _, _ => by
    refine ⟨s.links, s.cbs, rfl, h, fun c => ?_, fun f => ⟨.inl, fun q => q.elim id fun r => nomatch r.2.1⟩⟩
    rw [if_neg List.not_mem_nil]
  | c :: l, s, h, e, hl => by
    obtain ⟨y, ey, hy⟩ := h.colv c (hl c (List.mem_cons_self ..))
    have hl' : ∀ d ∈ l, d ∈ s.cols := fun d hd => hl d (List.mem_cons_of_mem _ hd)
    rw [dropLinks, ey]
    dsimp only
    by_cases ha : a ∈ s.links c
    · have hd : y.dev = x.dev := by
        have := (h.tgt c a ha).2
        rw [ey, e] at this
        exact Option.some.inj this
      rw [if_pos ⟨hd, ha⟩]
      have he : eraseUri s.heap x.uri (s.links c) = .ok ((s.links c).erase a) := by
        refine eraseUri_ok (fun t ht => h.listed (h.tgt c t ht).1) fun t ht z hz => ⟨fun hu => ?_, fun q => ?_⟩
        · refine h.uniq t a z x (h.tgt c t ht).1 (h.tgt c a ha).1 hz e ?_ hu
          have := (h.tgt c t ht).2
          rw [ey, hz] at this
          rw [← hd]
          exact (Option.some.inj this).symm
        · rw [q, e] at hz
          cases hz
          rfl
      rw [he]
      have h1 := h.erased c a
      have h2 := h1.sched (f := .ll) (a := c) ey (fun _ => hy) (fun q => nomatch q)
      obtain ⟨k, b, r1, r2, r3, r4⟩ := dropLinks_ok l h2 e hl'
      refine ⟨k, b, r1, r2, fun d => ?_, fun f => ?_⟩
      · rw [r3 d]
        show (if d ∈ l then (put s.links c ((s.links c).erase a) d).erase a else put s.links c ((s.links c).erase a) d) = _
        unfold put
        by_cases hdc : d = c
        · have hm : d ∈ c :: l := by rw [hdc]; exact List.mem_cons_self ..
          rw [if_pos hdc, if_pos hm, hdc, List.erase_of_not_mem (h.lnd c).not_mem_erase]
          split <;> rfl
        · rw [if_neg hdc]
          by_cases hdl : d ∈ l
          · rw [if_pos hdl, if_pos (List.mem_cons_of_mem _ hdl)]
          · rw [if_neg hdl, if_neg (by rw [List.mem_cons]; exact fun q => q.elim hdc hdl)]
      · rw [r4 f]
        have hs : f ∈ (schedule .ll c { s with links := put s.links c ((s.links c).erase a) }).cbs ↔ f ∈ s.cbs ∨ f = ⟨.ll, c⟩ := by
          show f ∈ (s.cbs.filter fun q => q != ⟨.ll, c⟩) ++ [⟨.ll, c⟩] ↔ _
          rw [List.mem_append, List.mem_filter, List.mem_singleton]
          by_cases hf : f = ⟨.ll, c⟩
          · exact ⟨fun _ => .inr hf, fun _ => .inr hf⟩
          · have : (f != ⟨.ll, c⟩) = true := by simpa using hf
            rw [this]
            exact ⟨fun q => q.elim (fun r => .inl r.1) .inr, fun q => q.elim (fun r => .inl ⟨r, rfl⟩) .inr⟩
        rw [hs]
        have hp : (schedule .ll c { s with links := put s.links c ((s.links c).erase a) }).links f.data =
            put s.links c ((s.links c).erase a) f.data := rfl
        rw [hp]
        unfold put
        constructor
        · rintro ((q | q) | ⟨q1, q2, q3⟩)
          · exact .inl q
          · subst q
            exact .inr ⟨rfl, List.mem_cons_self .., ha⟩
          · refine .inr ⟨q1, List.mem_cons_of_mem _ q2, ?_⟩
            split at q3
            next w => rw [w]; exact ha
            · exact q3
        · rintro (q | ⟨q1, q2, q3⟩)
          · exact .inl (.inl q)
          · by_cases w : f.data = c
            · refine .inl (.inr ?_)
              obtain ⟨ff, fd⟩ := f
              dsimp only at q1 w
              rw [q1, w]
            · refine .inr ⟨q1, (List.mem_cons.mp q2).resolve_left w, ?_⟩
              rw [if_neg w]
              exact q3
    · rw [if_neg (fun q => ha q.2)]
      obtain ⟨k, b, r1, r2, r3, r4⟩ := dropLinks_ok l h e hl'
      refine ⟨k, b, r1, r2, fun d => ?_, fun f => ?_⟩
      · rw [r3 d]
        by_cases hdc : d = c
        · have hm : d ∈ c :: l := by rw [hdc]; exact List.mem_cons_self ..
          rw [if_pos hm, hdc, List.erase_of_not_mem ha]
          split <;> rfl
        · by_cases hdl : d ∈ l
          · rw [if_pos hdl, if_pos (List.mem_cons_of_mem _ hdl)]
          · rw [if_neg hdl, if_neg (by rw [List.mem_cons]; exact fun q => q.elim hdc hdl)]
      · rw [r4 f]
        constructor
        · rintro (q | ⟨q1, q2, q3⟩)
          · exact .inl q
          · exact .inr ⟨q1, List.mem_cons_of_mem _ q2, q3⟩
        · rintro (q | ⟨q1, q2, q3⟩)
          · exact .inl q
          · refine .inr ⟨q1, (List.mem_cons.mp q2).resolve_left fun w => ?_, q3⟩
            rw [w] at q3
            exact ha q3

end Verif.Life
