import Verif.Observe.Model

/-! Helper lemmas for the registrations of observers. -/

namespace Verif.Observe

variable {E : Type}

/-- Number of observers of a resource in the list. -/
def countRes (l : List (Obs E)) (r : Nat) : Nat := l.countP fun o => o.res == r

/-- Two observers that `coap_remove_observer_duplicates` takes for the same. -/
def Same (cmp : E → E → Bool) (a b : Obs E) : Prop :=
  cmp a.ep b.ep = true ∧ a.url = b.url ∧ a.iface = b.iface

/-- The invariant of the registrations. -/
structure Inv (cmp : E → E → Bool) (s : St E) : Prop where
  ids : (s.obs.map (·.id)).Nodup
  idLt : ∀ o ∈ s.obs, o.id < s.nextId
  uniq : s.obs.Pairwise fun a b => ¬ Same cmp a b
  live : ∀ o ∈ s.obs, ∃ u, s.uri o.res = some u ∧ stripSlash u = stripSlash o.url
  count : ∀ r, (s.uri r).isSome → s.num r = countRes s.obs r
  small : ∀ r, countRes s.obs r ≤ 255

theorem eq_of_id {l : List (Obs E)} (h : (l.map (·.id)).Nodup) {a b : Obs E} (ha : a ∈ l) (hb : b ∈ l)
    (e : a.id = b.id) : a = b := by
  induction l with
  | nil => cases ha
  | cons x r ih =>
    simp only [List.map_cons, List.nodup_cons, List.mem_map, not_exists, not_and] at h
    rcases List.mem_cons.1 ha with rfl | ha'
    · rcases List.mem_cons.1 hb with rfl | hb'
      · rfl
      · exact absurd e.symm (h.1 b hb')
    · rcases List.mem_cons.1 hb with rfl | hb'
      · exact absurd e (h.1 a ha')
      · exact ih h.2 ha' hb'

theorem countRes_filter (l : List (Obs E)) (h : (l.map (·.id)).Nodup) (o : Obs E) (ho : o ∈ l) (r : Nat) :
    countRes (l.filter fun q => q.id ≠ o.id) r + (if o.res = r then 1 else 0) = countRes l r := by
  induction l with
  | nil => cases ho
  | cons x t ih =>
    simp only [List.map_cons, List.nodup_cons, List.mem_map, not_exists, not_and] at h
    rcases List.mem_cons.1 ho with e | ho'
    · subst e
      have : t.filter (fun q => q.id ≠ o.id) = t := by
        rw [List.filter_eq_self]
        intro a ha
        simpa using h.1 a ha
      rw [List.filter_cons_of_neg (by simp), this]
      simp only [countRes, List.countP_cons, beq_iff_eq]
    · have hx : x.id ≠ o.id := fun e => h.1 o ho' e.symm
      rw [List.filter_cons_of_pos (by simpa using hx)]
      have := ih h.2 ho'
      simp only [countRes, List.countP_cons] at *
      omega

theorem countRes_filter_le (l : List (Obs E)) (p : Obs E → Bool) (r : Nat) :
    countRes (l.filter p) r ≤ countRes l r := by
  exact (List.filter_sublist).countP_le

/-- The other components of the state are not touched. -/
structure Frame (s s' : St E) : Prop where
  uri : s'.uri = s.uri
  g : s'.g = s.g
  nextId : s'.nextId = s.nextId
  log : s'.log = s.log

theorem Frame.refl (s : St E) : Frame s s := ⟨rfl, rfl, rfl, rfl⟩
theorem Frame.trans {a b c : St E} (h : Frame a b) (k : Frame b c) : Frame a c :=
  ⟨k.uri.trans h.uri, k.g.trans h.g, k.nextId.trans h.nextId, k.log.trans h.log⟩

theorem removeOne_spec (cmp : E → E → Bool) (s : St E) (h : Inv cmp s) (o : Obs E) (ho : o ∈ s.obs) :
    ∃ s', removeOne s o = .ok s' ∧ Inv cmp s' ∧ Frame s s' ∧
      s'.obs = s.obs.filter fun q => q.id ≠ o.id := by
  obtain ⟨u, hu, hs⟩ := h.live o ho
  refine ⟨{ s with
      obs := s.obs.filter fun q => q.id ≠ o.id
      num := fun r => if r = o.res then (s.num r + 255) % 256 else s.num r }, by rw [removeOne, hu],
    ?_, ⟨rfl, rfl, rfl, rfl⟩, rfl⟩
  have hsub : (s.obs.filter fun q => q.id ≠ o.id).Sublist s.obs := List.filter_sublist
  constructor
  · exact h.ids.sublist (hsub.map _)
  · intro q hq; exact h.idLt q (hsub.subset hq)
  · exact h.uniq.sublist hsub
  · intro q hq; exact h.live q (hsub.subset hq)
  · intro r hr
    have hc := h.count r hr
    have hf := countRes_filter s.obs h.ids o ho r
    have hb := h.small r
    simp only
    by_cases e : r = o.res
    · rw [if_pos e]
      rw [if_pos e.symm] at hf
      omega
    · rw [if_neg e]
      rw [if_neg (fun x => e x.symm)] at hf
      omega
  · intro r
    exact Nat.le_trans (countRes_filter_le _ _ r) (h.small r)

/-- Removing all matching observers. -/
theorem removeLoop_all (cmp : E → E → Bool) (p : Obs E → Bool) (f : St E → Obs E → Out Bool) :
    ∀ (l : List (Obs E)) (s : St E) (n : Nat), Inv cmp s → (∀ o ∈ l, o ∈ s.obs) →
      (l.map (·.id)).Nodup →
      (∀ s', s'.uri = s.uri → ∀ o ∈ l, f s' o = .ok (p o)) →
      ∃ s', removeLoop f true l s n = .ok (s', n + l.countP p) ∧ Inv cmp s' ∧ Frame s s' ∧
        s'.obs = s.obs.filter fun q => !(p q && l.any fun o => o.id == q.id) := by
  intro l
  induction l with
  | nil =>
    intro s n h _ _ _
    refine ⟨s, rfl, h, .refl s, ?_⟩
    symm; rw [List.filter_eq_self]; intro a _; simp
  | cons o r ih =>
    intro s n h hin hnd hf
    simp only [List.map_cons, List.nodup_cons, List.mem_map, not_exists, not_and] at hnd
    rw [removeLoop, hf s rfl o (List.mem_cons_self ..), Out.bind]
    cases hp : p o with
    | false =>
      simp only [Bool.false_eq_true, if_false]
      obtain ⟨s', h1, h2, h3, h4⟩ := ih s n h (fun q hq => hin q (List.mem_cons_of_mem _ hq)) hnd.2
        (fun s' hs q hq => hf s' hs q (List.mem_cons_of_mem _ hq))
      refine ⟨s', by rw [h1, List.countP_cons_of_neg (by simp [hp])], h2, h3, ?_⟩
      rw [h4]
      apply List.filter_congr
      intro q hq
      rw [List.any_cons]
      by_cases e : o.id = q.id
      · have : o = q := eq_of_id h.ids (hin o (List.mem_cons_self ..)) hq e
        subst this; simp [hp]
      · have : (o.id == q.id) = false := by simp [e]
        rw [this, Bool.false_or]
    | true =>
      simp only [if_true]
      obtain ⟨s1, e1, i1, fr1, ob1⟩ := removeOne_spec cmp s h o (hin o (List.mem_cons_self ..))
      rw [e1, Out.bind]
      obtain ⟨s', h1, h2, h3, h4⟩ := ih s1 (n + 1) i1 (by
          intro q hq
          rw [ob1, List.mem_filter]
          exact ⟨hin q (List.mem_cons_of_mem _ hq), by simpa using hnd.1 q hq⟩) hnd.2
        (fun s' hs q hq => hf s' (hs.trans fr1.uri) q (List.mem_cons_of_mem _ hq))
      refine ⟨s', by rw [h1, List.countP_cons_of_pos hp]; congr 2; omega, h2, fr1.trans h3, ?_⟩
      rw [h4, ob1, List.filter_filter]
      apply List.filter_congr
      intro q hq
      rw [List.any_cons]
      by_cases e : o.id = q.id
      · have : o = q := eq_of_id h.ids (hin o (List.mem_cons_self ..)) hq e
        subst this; simp [hp]
      · have h1 : (o.id == q.id) = false := by simp [e]
        have h2 : decide (q.id ≠ o.id) = true := by simp; exact fun x => e x.symm
        rw [h1, h2, Bool.false_or, Bool.and_true]

theorem removeBy_all (cmp : E → E → Bool) (p : Obs E → Bool) (f : St E → Obs E → Out Bool)
    (s : St E) (h : Inv cmp s) (hf : ∀ s', s'.uri = s.uri → ∀ o ∈ s.obs, f s' o = .ok (p o)) :
    ∃ s', removeBy f true s = .ok (s', s.obs.countP p) ∧ Inv cmp s' ∧ Frame s s' ∧
      s'.obs = s.obs.filter fun q => !p q := by
  obtain ⟨s', h1, h2, h3, h4⟩ := removeLoop_all cmp p f s.obs s 0 h (fun _ h => h) h.ids hf
  refine ⟨s', by rw [removeBy, h1, Nat.zero_add], h2, h3, ?_⟩
  rw [h4]
  apply List.filter_congr
  intro q hq
  have : (s.obs.any fun o => o.id == q.id) = true := by
    rw [List.any_eq_true]; exact ⟨q, hq, by simp⟩
  rw [this, Bool.and_true]

/-- Removing the first matching observer. -/
theorem removeLoop_first (cmp : E → E → Bool) (p : Obs E → Bool) (f : St E → Obs E → Out Bool) :
    ∀ (l : List (Obs E)) (s : St E) (n : Nat), Inv cmp s → (∀ o ∈ l, o ∈ s.obs) →
      (∀ o ∈ l, f s o = .ok (p o)) →
      ∃ s' k, removeLoop f false l s n = .ok (s', k) ∧ Inv cmp s' ∧ Frame s s' ∧
        s'.obs = match l.find? p with
          | none => s.obs
          | some o => s.obs.filter fun q => q.id ≠ o.id := by
  intro l
  induction l with
  | nil => intro s n h _ _; exact ⟨s, n, rfl, h, .refl s, rfl⟩
  | cons o r ih =>
    intro s n h hin hf
    rw [removeLoop, hf o (List.mem_cons_self ..), Out.bind]
    cases hp : p o with
    | false =>
      simp only [Bool.false_eq_true, if_false]
      obtain ⟨s', k, h1, h2, h3, h4⟩ := ih s n h (fun q hq => hin q (List.mem_cons_of_mem _ hq))
        (fun q hq => hf q (List.mem_cons_of_mem _ hq))
      refine ⟨s', k, h1, h2, h3, ?_⟩
      rw [h4, List.find?_cons_of_neg (by simp [hp])]
    | true =>
      simp only [if_true]
      obtain ⟨s1, e1, i1, fr1, ob1⟩ := removeOne_spec cmp s h o (hin o (List.mem_cons_self ..))
      rw [e1, Out.bind]
      refine ⟨s1, n + 1, by simp, i1, fr1, ?_⟩
      rw [ob1, List.find?_cons_of_pos hp]

theorem removeBy_first (cmp : E → E → Bool) (p : Obs E → Bool) (f : St E → Obs E → Out Bool)
    (s : St E) (h : Inv cmp s) (hf : ∀ o ∈ s.obs, f s o = .ok (p o)) :
    ∃ s' k, removeBy f false s = .ok (s', k) ∧ Inv cmp s' ∧ Frame s s' ∧
        s'.obs = match s.obs.find? p with
          | none => s.obs
          | some o => s.obs.filter fun q => q.id ≠ o.id :=
  removeLoop_first cmp p f s.obs s 0 h (fun _ h => h) hf

theorem add_spec (cmp : E → E → Bool) (s : St E) (h : Inv cmp s) (ep : E) (url : List UInt8)
    (iface : Nat) (token : List UInt8) (r : Nat) (u : List UInt8) (hu : s.uri r = some u)
    (hurl : stripSlash u = stripSlash url) (hn : countRes s.obs r < 255) :
    ∃ s', add cmp s ep url iface token r = .ok s' ∧ Inv cmp s' ∧
      s'.uri = s.uri ∧ s'.g = s.g ∧ s'.log = s.log ∧ s'.nextId = s.nextId + 1 ∧
      s'.obs = (s.obs.filter fun q => !(cmp q.ep ep && q.url == url && q.iface == iface)) ++
        [⟨s.nextId, ep, url, iface, token, 0, r, s.g⟩] := by
  obtain ⟨s1, e1, i1, f1, o1⟩ := removeBy_all cmp
    (fun q => cmp q.ep ep && q.url == url && q.iface == iface) (matchData cmp ep url iface) s h
    (fun _ _ _ _ => rfl)
  refine ⟨{ s1 with
      obs := s1.obs ++ [⟨s1.nextId, ep, url, iface, token, 0, r, s1.g⟩]
      num := fun q => if q = r then (s1.num q + 1) % 256 else s1.num q
      nextId := s1.nextId + 1 }, by rw [add, e1]; rfl, ?_, f1.uri, f1.g, f1.log, by rw [← f1.nextId], by
    rw [← o1, ← f1.nextId, ← f1.g]⟩
  constructor
  · simp only [List.map_append, List.map_cons, List.map_nil]
    rw [List.nodup_append]
    refine ⟨i1.ids, by simp, ?_⟩
    intro a ha b hb
    obtain ⟨q, hq, rfl⟩ := List.mem_map.1 ha
    have := i1.idLt q hq
    simp only [List.mem_singleton] at hb
    omega
  · intro q hq
    rcases List.mem_append.1 hq with hq | hq
    · have := i1.idLt q hq; simp only; omega
    · rw [List.mem_singleton] at hq; subst hq; simp
  · simp only
    rw [List.pairwise_append]
    refine ⟨i1.uniq, by simp, ?_⟩
    intro a ha b hb
    rw [List.mem_singleton] at hb
    subst hb
    rw [o1, List.mem_filter] at ha
    rintro ⟨h1, h2, h3⟩
    simp only at h1 h2 h3
    simp [h1, h2, h3] at ha
  · intro q hq
    simp only at hq ⊢
    rcases List.mem_append.1 hq with hq | hq
    · exact i1.live q hq
    · rw [List.mem_singleton] at hq; subst hq
      exact ⟨u, by rw [f1.uri]; exact hu, hurl⟩
  · intro q hq
    have hc := i1.count q hq
    have hle : countRes s1.obs q ≤ countRes s.obs q := by
      rw [o1]; exact countRes_filter_le _ _ q
    simp only [countRes, List.countP_append, List.countP_singleton] at *
    by_cases e : q = r
    · subst e
      simp only [if_true, beq_self_eq_true]
      omega
    · rw [if_neg e]
      have : (r == q) = false := by simp; exact fun x => e x.symm
      simp [this, hc]
  · intro q
    have hle : countRes s1.obs q ≤ countRes s.obs q := by
      rw [o1]; exact countRes_filter_le _ _ q
    have := h.small q
    simp only [countRes, List.countP_append, List.countP_singleton] at *
    by_cases e : r = q
    · subst e; simp; omega
    · have : (r == q) = false := by simpa using e
      simp [this]; omega

end Verif.Observe
