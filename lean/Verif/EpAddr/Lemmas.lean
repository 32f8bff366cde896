import Verif.EpAddr.Spec
/-!
Lemmas for the list of servers.
-/
namespace Verif.EpAddr

/-- The list invariant: items are distinct, uris are distinct and fit, and an item
is selected exactly if there is one. -/
structure Inv (lim : Nat) (s : Addrs) : Prop where
  ids : s.items.Pairwise fun a b => a.id ≠ b.id
  old : ∀ i ∈ s.items, i.id < s.next
  uris : s.items.Pairwise fun a b => a.uri ≠ b.uri
  fits : ∀ i ∈ s.items, Fits lim i.uri
  none_iff : s.sel = none ↔ s.items = []
  mem : ∀ p, s.sel = some p → ∃ i ∈ s.items, i.id = p

theorem valid_iff (lim : Nat) (u : Bytes) : valid lim u = true ↔ Fits lim u := by
  simp [valid, Fits]

theorem contains_iff (s : Addrs) (u : Bytes) : contains s u = true ↔ ∃ i ∈ s.items, i.uri = u := by
  simp [contains]

theorem inv_init (lim : Nat) : Inv lim {} :=
  ⟨by simp, by simp, by simp, by simp, by simp, by simp⟩

theorem inv_drop {lim : Nat} {s : Addrs} (_h : Inv lim s) : Inv lim { s with items := [], sel := none } :=
  ⟨by simp, by simp, by simp, by simp, by simp, by simp⟩

theorem inv_new {lim : Nat} {s : Addrs} (h : Inv lim s) {v : View} (hv : Fits lim v.uri)
    (hn : ¬ ∃ i ∈ s.items, i.uri = v.uri) (sel : Option Nat) (c : Nat)
    (hs : sel = some s.next ∧ s.items = [] ∨ sel = s.sel ∧ s.sel ≠ none) :
    Inv lim { items := s.items ++ [⟨s.next, v.uri, v.tag⟩], sel := sel, next := s.next + 1, calls := c } := by
  refine ⟨?_, ?_, ?_, ?_, ?_, ?_⟩
  · refine List.pairwise_append.2 ⟨h.ids, by simp, ?_⟩
    intro a ha b hb
    have := h.old a ha
    simp at hb; subst hb; simp; omega
  · intro i hi
    simp at hi
    rcases hi with hi | rfl
    · exact Nat.lt_succ_of_lt (h.old i hi)
    · simp
  · refine List.pairwise_append.2 ⟨h.uris, by simp, ?_⟩
    intro a ha b hb
    simp at hb; subst hb
    exact fun e => hn ⟨a, ha, e⟩
  · intro i hi
    simp at hi
    rcases hi with hi | rfl
    · exact h.fits i hi
    · exact hv
  · rcases hs with ⟨rfl, _⟩ | ⟨rfl, hs⟩ <;> simp_all
  · intro p hp
    rcases hs with ⟨rfl, _⟩ | ⟨rfl, hs⟩
    · cases hp; exact ⟨⟨s.next, v.uri, v.tag⟩, by simp, rfl⟩
    · obtain ⟨i, hi, e⟩ := h.mem p hp
      exact ⟨i, by simp [hi], e⟩

/-- What adding does. -/
theorem allocAdd_eq {lim : Nat} {s : Addrs} (h : Inv lim s) (m : Bool) (v : View) :
    allocAdd lim m s v =
      if m = true ∧ Fits lim v.uri then
        .ok (some s.next,
          { items := s.items ++ [⟨s.next, v.uri, v.tag⟩],
            sel := if s.sel = none then some s.next else s.sel, next := s.next + 1,
            calls := if s.sel = none then s.calls + 1 else s.calls })
      else .ok (none, s) := by
  unfold allocAdd
  by_cases hv : Fits lim v.uri
  · have hv' := (valid_iff lim v.uri).2 hv
    cases m
    · simp [hv']
    · by_cases hs : s.sel = none
      · simp [hv', hv, hs, h.none_iff.1 hs, select']
      · simp [hv', hv, hs]
  · have hv' : valid lim v.uri = false := by
      cases e : valid lim v.uri
      · rfl
      · exact absurd ((valid_iff _ _).1 e) hv
    simp [hv', hv]

theorem add_eq {lim : Nat} {s : Addrs} (h : Inv lim s) (m : Bool) (v : View) :
    add lim m s v =
      if m = true ∧ Fits lim v.uri ∧ ¬ ∃ i ∈ s.items, i.uri = v.uri then
        .ok (some s.next,
          { items := s.items ++ [⟨s.next, v.uri, v.tag⟩],
            sel := if s.sel = none then some s.next else s.sel, next := s.next + 1,
            calls := if s.sel = none then s.calls + 1 else s.calls })
      else .ok (none, s) := by
  unfold add
  by_cases hv : Fits lim v.uri
  · have hv' := (valid_iff lim v.uri).2 hv
    by_cases hc : ∃ i ∈ s.items, i.uri = v.uri
    · have hc' := (contains_iff s v.uri).2 hc
      rw [if_neg (by simp [hv']), if_pos hc', if_neg (by simp only [hc]; simp)]
    · have hc' : contains s v.uri = false := by
        cases e : contains s v.uri
        · rfl
        · exact absurd ((contains_iff _ _).1 e) hc
      rw [if_neg (by simp [hv']), if_neg (by simp [hc']), allocAdd_eq h]
      simp only [hc, hv, not_false_eq_true, and_true]
  · have hv' : valid lim v.uri = false := by
      cases e : valid lim v.uri
      · rfl
      · exact absurd ((valid_iff _ _).1 e) hv
    simp [hv', hv]

/-- Two positions with the same number are the same position. -/
theorem id_inj {lim : Nat} {s : Addrs} (h : Inv lim s) {j k : Nat} {a b : Item}
    (ha : s.items[j]? = some a) (hb : s.items[k]? = some b) (e : a.id = b.id) : j = k := by
  rcases Nat.lt_trichotomy j k with hl | rfl | hl
  · obtain ⟨hj, ha⟩ := List.getElem?_eq_some_iff.1 ha
    obtain ⟨hk, hb⟩ := List.getElem?_eq_some_iff.1 hb
    exact absurd (by rw [ha, hb]; exact e) (List.pairwise_iff_getElem.1 h.ids j k hj hk hl)
  · rfl
  · obtain ⟨hj, ha⟩ := List.getElem?_eq_some_iff.1 ha
    obtain ⟨hk, hb⟩ := List.getElem?_eq_some_iff.1 hb
    exact absurd (by rw [ha, hb]; exact e.symm) (List.pairwise_iff_getElem.1 h.ids k j hk hj hl)

theorem findIdx_id {lim : Nat} {s : Addrs} (h : Inv lim s) {k : Nat} {i : Item}
    (hi : s.items[k]? = some i) : s.items.findIdx (fun j => j.id == i.id) = k := by
  obtain ⟨hk, e⟩ := List.getElem?_eq_some_iff.1 hi
  rw [List.findIdx_eq hk]
  refine ⟨by simp [e], ?_⟩
  intro j hj
  have := List.pairwise_iff_getElem.1 h.ids j k (by omega) hk hj
  rw [e] at this
  simp [this]

theorem nextOf_at {l : List Item} (h : l.Pairwise fun a b => a.id ≠ b.id) :
    ∀ {k : Nat} {i : Item}, l[k]? = some i → nextOf i.id l = .ok (l[k + 1]?.map (·.id)) := by
  induction l with
  | nil => intro k i e; simp at e
  | cons a l ih =>
    intro k i e
    cases k with
    | zero =>
      simp at e; subst e
      simp [nextOf, List.head?_eq_getElem?]
    | succ k =>
      simp at e
      have hne : a.id ≠ i.id := (List.pairwise_cons.1 h).1 i (List.mem_of_getElem? e)
      rw [nextOf, if_neg hne, ih (List.pairwise_cons.1 h).2 e]
      simp

theorem filter_id {l : List Item} (h : l.Pairwise fun a b => a.id ≠ b.id) :
    ∀ {k : Nat} {i : Item}, l[k]? = some i → (l.filter fun j => j.id != i.id) = l.eraseIdx k := by
  induction l with
  | nil => intro k i e; simp at e
  | cons a l ih =>
    intro k i e
    cases k with
    | zero =>
      simp at e; subst e
      simp only [List.filter, bne_self_eq_false, List.eraseIdx_cons_zero]
      rw [List.filter_eq_self]
      intro b hb
      have := (List.pairwise_cons.1 h).1 b hb
      simp [Ne.symm this]
    | succ k =>
      simp at e
      have hne : a.id ≠ i.id := (List.pairwise_cons.1 h).1 i (List.mem_of_getElem? e)
      simp only [List.eraseIdx_cons_succ]
      rw [List.filter_cons_of_pos (by simpa using hne), ih (List.pairwise_cons.1 h).2 e]

theorem find_first {f : Item → Bool} {l : List Item} {k : Option Nat} (h : First (f · = true) l k) :
    l.find? f = k.bind (l[·]?) := by
  cases k with
  | none =>
    simp only [Option.bind_none, List.find?_eq_none]
    exact fun i hi => by simpa using h i hi
  | some k =>
    obtain ⟨i, hi, hf, hj⟩ := h
    obtain ⟨hk, e⟩ := List.getElem?_eq_some_iff.1 hi
    simp only [Option.bind_some, hi]
    rw [List.find?_eq_some_iff_getElem]
    refine ⟨hf, k, hk, e, ?_⟩
    intro j hj'
    have := hj j hj' l[j] (by simp)
    simpa using this

/-- The selected item has a position. -/
theorem sel_pos {lim : Nat} {s : Addrs} (h : Inv lim s) {p : Nat} (hp : s.sel = some p) :
    ∃ (k : Nat) (i : Item), s.items[k]? = some i ∧ i.id = p ∧ (servers s).cur = k := by
  obtain ⟨i, hi, e⟩ := h.mem p hp
  obtain ⟨k, hk⟩ := List.getElem?_of_mem hi
  refine ⟨k, i, hk, e, ?_⟩
  simp only [servers, hp]
  rw [← e]
  exact findIdx_id h hk

/-- What selecting an item of the list does. -/
theorem select'_inv {lim : Nat} {s : Addrs} (h : Inv lim s) {k : Nat} {i : Item}
    (hi : s.items[k]? = some i) :
    Inv lim (select' s (some i.id)).2 ∧ servers (select' s (some i.id)).2 = ⟨(servers s).all, k⟩ := by
  have hm : i ∈ s.items := List.mem_of_getElem? hi
  unfold select'
  by_cases e : s.sel = some i.id
  · rw [if_pos e]
    refine ⟨h, ?_⟩
    simp only [servers, e, Servers.mk.injEq, true_and]
    exact findIdx_id h hi
  · rw [if_neg e]
    refine ⟨⟨h.ids, h.old, h.uris, h.fits, ?_, ?_⟩, ?_⟩
    · simp only [reduceCtorEq, false_iff]
      exact fun e => by rw [e] at hm; simp at hm
    · intro p hp; cases hp; exact ⟨i, hm, rfl⟩
    · simp only [servers, Servers.mk.injEq, true_and]
      exact findIdx_id h hi

theorem select'_ne {s : Addrs} {p : Option Nat} (h : s.sel ≠ p) :
    select' s p = (true, { s with sel := p, calls := s.calls + 1 }) := by
  unfold select'; rw [if_neg h]

theorem cur_lt {lim : Nat} {s : Addrs} (h : Inv lim s) (hne : s.items ≠ []) :
    (servers s).cur < s.items.length := by
  cases hs : s.sel with
  | none => exact absurd (h.none_iff.1 hs) hne
  | some p =>
    obtain ⟨k, i, hk, _, e⟩ := sel_pos h hs
    rw [e]
    exact (List.getElem?_eq_some_iff.1 hk).1

/-- The state after removing the item at position `k`, before another one is
selected. -/
def cut (s : Addrs) (k : Nat) : Addrs := { s with items := s.items.eraseIdx k }

theorem map_eraseIdx {α β : Type} (f : α → β) : ∀ (l : List α) (k : Nat),
    (l.eraseIdx k).map f = (l.map f).eraseIdx k
  | [], _ => rfl
  | _ :: _, 0 => rfl
  | a :: l, k + 1 => by simp [map_eraseIdx f l k]

theorem eraseIdx_get {l : List Item} {k j : Nat} :
    (l.eraseIdx k)[j]? = if j < k then l[j]? else l[j + 1]? := by
  rw [List.getElem?_eraseIdx]

/-- What removing does. -/
theorem remove_eq {lim : Nat} {s : Addrs} (h : Inv lim s) {k : Nat} {i : Item}
    (hi : s.items[k]? = some i) :
    ∃ s', remove s (.mine i.id) = .ok (true, s') ∧ Inv lim s' ∧
      (servers s').all = (servers s).all.eraseIdx k ∧
      (servers s').cur = (if k < (servers s).cur then (servers s).cur - 1
            else if (servers s).cur < k then (servers s).cur
            else if k + 1 < (servers s).all.length then k else 0) ∧
      s'.calls = s.calls + (if s'.sel = s.sel then 0 else 1) := by
  have hk := (List.getElem?_eq_some_iff.1 hi).1
  have hcut : ∀ sel c, (sel = none ↔ s.items.eraseIdx k = []) →
      (∀ p, sel = some p → ∃ j ∈ s.items.eraseIdx k, j.id = p) →
      Inv lim { items := s.items.eraseIdx k, sel := sel, next := s.next, calls := c } := by
    intro sel c hn hm
    have hsub := List.eraseIdx_sublist s.items k
    exact ⟨h.ids.sublist hsub, fun j hj => h.old j (hsub.subset hj), h.uris.sublist hsub,
      fun j hj => h.fits j (hsub.subset hj), hn, hm⟩
  have hall : ∀ sel c, (servers { items := s.items.eraseIdx k, sel := sel, next := s.next, calls := c }).all
      = (servers s).all.eraseIdx k := by
    intro sel c; simp only [servers, map_eraseIdx]
  have hlen : (servers s).all.length = s.items.length := by simp [servers]
  have hfil : (s.items.filter fun j => j.id != i.id) = s.items.eraseIdx k := filter_id h.ids hi
  unfold remove
  simp only [nextOf_at h.ids hi, Out.bind, hfil]
  by_cases hs : s.sel = some i.id
  · -- the selected item is removed
    have hcur : (servers s).cur = k := by
      simp only [servers, hs]; exact findIdx_id h hi
    rw [if_pos hs]
    simp only [hcur, Nat.lt_irrefl, if_false, hlen]
    by_cases hl : k + 1 < s.items.length
    · -- the next one
      have hnx : s.items[k + 1]? = some s.items[k + 1] := by simp [hl]
      have hne : s.items[k + 1].id ≠ i.id := fun e => by
        have := id_inj h hnx hi e; omega
      have ho : orHead { s with items := s.items.eraseIdx k } (s.items[k + 1]?.map (·.id)) =
          some s.items[k + 1].id := by rw [hnx]; rfl
      rw [ho]
      have hsel : s.sel ≠ some s.items[k + 1].id := by rw [hs]; simpa using Ne.symm hne
      unfold select'
      rw [if_neg hsel]
      have hat : (s.items.eraseIdx k)[k]? = some s.items[k + 1] := by
        rw [eraseIdx_get, if_neg (by omega), hnx]
      refine ⟨_, rfl, ?hi, hall _ _, ?_, ?_⟩
      · exact hcut _ _ (by
          simp only [reduceCtorEq, false_iff]
          intro e; rw [e] at hat; simp at hat) (fun p hp => by
          cases hp; exact ⟨_, List.mem_of_getElem? hat, rfl⟩)
      · rw [if_pos hl]
        simp only [servers]
        have hI := hcut (some s.items[k + 1].id) (s.calls + 1) (by
          simp only [reduceCtorEq, false_iff]
          intro e; rw [e] at hat; simp at hat) (fun p hp => by
          cases hp; exact ⟨_, List.mem_of_getElem? hat, rfl⟩)
        exact findIdx_id hI hat
      · simp only
        rw [if_neg (by rw [eq_comm]; exact hsel)]
    · -- the first one
      have hnx : s.items[k + 1]? = none := by simp; omega
      rw [hnx, if_neg hl]
      simp only [Option.map_none, orHead]
      cases hh : (s.items.eraseIdx k) with
      | nil =>
        have hsel : s.sel ≠ none := by rw [hs]; simp
        simp only [List.head?_nil, Option.map_none]
        rw [select'_ne (s := ⟨[], s.sel, s.next, s.calls⟩) hsel]
        refine ⟨_, rfl, ?_, ?_, rfl, ?_⟩
        · have := hcut none (s.calls + 1) (by simp [hh]) (by simp)
          rwa [hh] at this
        · have := hall none (s.calls + 1)
          rw [hh] at this; exact this
        · simp only
          rw [if_neg (by rw [eq_comm]; exact hsel)]
      | cons b l =>
        have hat : (s.items.eraseIdx k)[0]? = some b := by rw [hh]; rfl
        have hbi : b.id ≠ i.id := by
          intro e
          rw [eraseIdx_get] at hat
          split at hat
          · have := id_inj h hat hi e; omega
          · have := id_inj h hat hi e; omega
        have hsel : s.sel ≠ some b.id := by rw [hs]; simpa using Ne.symm hbi
        simp only [List.head?_cons, Option.map_some]
        rw [select'_ne (s := ⟨b :: l, s.sel, s.next, s.calls⟩) hsel]
        have hI := hcut (some b.id) (s.calls + 1) (by simp [hh]) (fun p hp => by
          cases hp; exact ⟨b, List.mem_of_getElem? hat, rfl⟩)
        have ha := hall (some b.id) (s.calls + 1)
        rw [hh] at hI ha
        refine ⟨_, rfl, hI, ha, ?_, ?_⟩
        · simp [servers, List.findIdx_cons]
        · simp only
          rw [if_neg (by rw [eq_comm]; exact hsel)]
  · -- another item is removed
    rw [if_neg hs]
    cases hp : s.sel with
    | none =>
      have := h.none_iff.1 hp
      rw [this] at hi; simp at hi
    | some p =>
      obtain ⟨c, j, hj, hjp, hc⟩ := sel_pos h hp
      have hck : c ≠ k := by
        rintro rfl
        rw [hi] at hj; cases hj
        exact hs (by rw [hp, hjp])
      have hat : (s.items.eraseIdx k)[if k < c then c - 1 else c]? = some j := by
        rw [eraseIdx_get]
        by_cases hl : k < c
        · rw [if_pos hl, if_neg (by omega), ← hj]; congr 1; omega
        · rw [if_neg hl, if_pos (by omega), hj]
      have hI := hcut (some p) s.calls (by
          simp only [reduceCtorEq, false_iff]
          intro e; rw [e] at hat; simp at hat) (fun q hq => by
          cases hq; exact ⟨_, List.mem_of_getElem? hat, hjp⟩)
      have heq : ({ items := s.items.eraseIdx k, sel := s.sel, next := s.next, calls := s.calls } : Addrs) =
          { items := s.items.eraseIdx k, sel := some p, next := s.next, calls := s.calls } := by rw [hp]
      refine ⟨_, rfl, ?_, hall _ _, ?_, ?_⟩
      · rw [← hp]; exact heq ▸ hI
      · have := findIdx_id hI hat
        rw [hjp] at this
        simp only [servers] at this ⊢
        simp only [hp] at this ⊢
        rw [this]
        have hc' : (s.items.findIdx fun i => i.id == p) = c := by
          have := hc; simp only [servers, hp] at this; exact this
        rw [hc']
        by_cases hl : k < c
        · rw [if_pos hl, if_pos hl]
        · rw [if_neg hl, if_neg hl, if_pos (by omega)]
      · simp
end Verif.EpAddr
