import Verif.Discovery.Props
import Verif.Etag.Lemmas

/-! C113: batches of representations with incremental changes. -/

namespace Verif.Discovery

open Verif.Rep (Bytes Rep Val b)

/-! ### One answer -/

theorem readable_iff (w : World) (dev : Nat) (al : Nat → Bool) (r : Res) :
    Readable w dev al r ↔ r ∈ iterate w dev ∧ inBatch w (fun r => al r.addr) true r = true := by
  unfold Readable inBatch
  simp only [Bool.true_and, Bool.and_eq_true, Bool.not_eq_true', Bool.or_eq_false_iff,
    Bool.not_eq_false']
  constructor
  · rintro ⟨a, c, d, e, f, g⟩; exact ⟨a, ⟨⟨c, d⟩, e⟩, f, g⟩
  · rintro ⟨a, ⟨⟨c, d⟩, e⟩, f, g⟩; exact ⟨a, c, d, e, f, g⟩

/-- C113: what an answer holds: the representation of every resource the client may read,
newer than the ETag chosen. -/
theorem batch_items (w : World) (dev : Nat) (al : Nat → Bool) (clears : Res → Bool) (q : BReq) (i : Item) :
    i ∈ (batch w (fun r => al r.addr) clears dev q).2 ↔
      ∃ r, Readable w dev al r ∧ clears r = false ∧
        (incEtag w (fun r => al r.addr) dev q ≠ 0 → r.etag > incEtag w (fun r => al r.addr) dev q) ∧
        i = ⟨r.uri.take 256, r.etag, r.content⟩ := by
  have e : (batch w (fun r => al r.addr) clears dev q).2 =
      ((iterate w dev).filter (inAnswer w (fun r => al r.addr) clears
        (incEtag w (fun r => al r.addr) dev q))).map itemOf := by
    unfold batch; dsimp only; split <;> rfl
  rw [e, List.mem_map]
  generalize incEtag w (fun r => al r.addr) dev q = c
  constructor
  · rintro ⟨r, hr, rfl⟩
    obtain ⟨h1, h2⟩ := List.mem_filter.1 hr
    simp only [inAnswer, Bool.and_eq_true, Bool.or_eq_true, beq_iff_eq, decide_eq_true_eq,
      Bool.not_eq_true'] at h2
    exact ⟨r, (readable_iff w dev al r).2 ⟨h1, h2.1.1⟩, h2.2, fun h => h2.1.2.resolve_left h, rfl⟩
  · rintro ⟨r, hr, hc, he, rfl⟩
    obtain ⟨h1, h2⟩ := (readable_iff w dev al r).1 hr
    refine ⟨r, List.mem_filter.2 ⟨h1, ?_⟩, rfl⟩
    simp only [inAnswer, Bool.and_eq_true, Bool.or_eq_true, beq_iff_eq, decide_eq_true_eq,
      Bool.not_eq_true', h2, hc, true_and, and_true]
    by_cases h0 : c = 0
    · exact Or.inl h0
    · exact Or.inr (he h0)

theorem hasEtag_iff (w : World) (acl : Res → Bool) (dev e : Nat) : hasEtag w acl dev e = true ↔
    ∃ r ∈ iterate w dev, inBatch w acl false r = true ∧ r.etag = e := by
  simp only [hasEtag, List.any_eq_true, Bool.and_eq_true, beq_iff_eq]

theorem candidate_fold (w : World) (acl : Res → Bool) (dev : Nat) : ∀ (l : List Nat) (c : Nat),
    (c = 0 ∨ hasEtag w acl dev c = true) →
    let r := l.foldl (candidate w acl dev) c
    (r = c ∨ r ∈ l) ∧ (r = 0 ∨ hasEtag w acl dev r = true) ∧ c ≤ r ∧
      ∀ e ∈ l, hasEtag w acl dev e = true → e ≤ r
  | [], c, hc => ⟨Or.inl rfl, hc, Nat.le_refl _, by simp⟩
  | e :: l, c, hc => by
    have hs : candidate w acl dev c e = if c ≤ e ∧ hasEtag w acl dev e = true then e else c := by
      unfold candidate
      by_cases h1 : e < c
      · rw [if_pos h1, if_neg (by omega)]
      · rw [if_neg h1]
        cases h2 : hasEtag w acl dev e
        · simp
        · simp [show c ≤ e by omega]
    have hc' : candidate w acl dev c e = 0 ∨ hasEtag w acl dev (candidate w acl dev c e) = true := by
      rw [hs]; split
      · rename_i h; exact Or.inr h.2
      · exact hc
    obtain ⟨h1, h2, h3, h4⟩ := candidate_fold w acl dev l _ hc'
    simp only [List.foldl_cons]
    have hle : c ≤ candidate w acl dev c e := by rw [hs]; split <;> omega
    refine ⟨?_, h2, by omega, ?_⟩
    · rcases h1 with h1 | h1
      · rw [h1, hs]
        split
        · exact Or.inr (by simp)
        · exact Or.inl rfl
      · exact Or.inr (List.mem_cons_of_mem _ h1)
    · intro x hx hh
      rcases List.mem_cons.1 hx with rfl | hx
      · have : x ≤ candidate w acl dev c x := by
          rw [hs]; split
          · exact Nat.le_refl _
          · rename_i hn
            rw [hh] at hn
            simp only [and_true] at hn
            omega
        omega
      · exact h4 x hx hh

/-- C113: the ETag an answer starts from is the greatest of those the client sent that some
resource still has, or none (0, everything is sent) if no resource has any of them. -/
theorem incEtag_greatest (w : World) (acl : Res → Bool) (dev : Nat) (q : BReq) (l : List Nat)
    (hq : q.inc = some l) :
    let sent := q.etag0.toList ++ l
    (incEtag w acl dev q = 0 ∨ (incEtag w acl dev q ∈ sent ∧
        ∃ r ∈ iterate w dev, inBatch w acl false r = true ∧ r.etag = incEtag w acl dev q)) ∧
    ∀ e ∈ sent, (∃ r ∈ iterate w dev, inBatch w acl false r = true ∧ r.etag = e) →
      e ≤ incEtag w acl dev q := by
  dsimp only
  simp only [← hasEtag_iff]
  have e : incEtag w acl dev q = l.foldl (candidate w acl dev)
      (match q.etag0 with
       | some e => if hasEtag w acl dev e then e else 0
       | none => 0) := by unfold incEtag; rw [hq]; cases q.etag0 <;> rfl
  cases h0 : q.etag0 with
  | none =>
    rw [h0] at e
    obtain ⟨h1, h2, _, h4⟩ := candidate_fold w acl dev l 0 (Or.inl rfl)
    rw [← e] at h1 h2 h4
    refine ⟨?_, by simpa using h4⟩
    rcases h2 with h2 | h2
    · exact Or.inl h2
    · rcases h1 with h1 | h1
      · exact Or.inl h1
      · exact Or.inr ⟨by simpa using h1, h2⟩
  | some e0 =>
    rw [h0] at e
    dsimp only at e
    obtain ⟨h1, h2, h3, h4⟩ := candidate_fold w acl dev l (if hasEtag w acl dev e0 then e0 else 0) (by
      split
      · rename_i h; exact Or.inr h
      · exact Or.inl rfl)
    rw [← e] at h1 h2 h3 h4
    refine ⟨?_, ?_⟩
    · rcases h2 with h2 | h2
      · exact Or.inl h2
      · rcases h1 with h1 | h1
        · split at h1
          · exact Or.inr ⟨by simp [h1], h2⟩
          · exact Or.inl h1
        · exact Or.inr ⟨by simp [h1], h2⟩
    · intro x hx hh
      simp only [Option.toList_some, List.cons_append, List.nil_append, List.mem_cons] at hx
      rcases hx with rfl | hx
      · rw [hh, if_pos rfl] at h3; exact h3
      · exact h4 x hx hh

theorem incEtag_sent (w : World) (acl : Res → Bool) (dev : Nat) (q : BReq) :
    incEtag w acl dev q = 0 ∨ incEtag w acl dev q ∈ q.etag0.toList ++ (q.inc.getD []) := by
  cases hq : q.inc with
  | none => left; unfold incEtag; rw [hq]
  | some l =>
    rcases (incEtag_greatest w acl dev q l hq).1 with h | h
    · exact Or.inl h
    · exact Or.inr h.1

theorem batchEtag_fold (w : World) (acl : Res → Bool) : ∀ (l : List Res) (m : Nat),
    let x := l.foldl (fun m r => if !inBatch w acl false r then m else if r.etag > m then r.etag else m) m
    m ≤ x ∧ (∀ r ∈ l, inBatch w acl false r = true → r.etag ≤ x) ∧
      (x = m ∨ ∃ r ∈ l, inBatch w acl false r = true ∧ r.etag = x)
  | [], m => ⟨Nat.le_refl _, by simp, Or.inl rfl⟩
  | r :: l, m => by
    simp only [List.foldl_cons]
    obtain ⟨h1, h2, h3⟩ := batchEtag_fold w acl l
      (if !inBatch w acl false r then m else if r.etag > m then r.etag else m)
    cases hb : inBatch w acl false r with
    | false =>
      rw [hb] at h1 h2 h3
      simp only [Bool.not_false, if_true] at h1 h2 h3 ⊢
      refine ⟨h1, ?_, ?_⟩
      · intro y hy hh
        rcases List.mem_cons.1 hy with rfl | hy
        · rw [hb] at hh; cases hh
        · exact h2 y hy hh
      · rcases h3 with h3 | ⟨y, hy, hh⟩
        · exact Or.inl h3
        · exact Or.inr ⟨y, List.mem_cons_of_mem _ hy, hh⟩
    | true =>
      rw [hb] at h1 h2 h3
      simp only [Bool.not_true, Bool.false_eq_true, if_false] at h1 h2 h3 ⊢
      have hm : m ≤ (if r.etag > m then r.etag else m) ∧ r.etag ≤ (if r.etag > m then r.etag else m) := by
        split <;> omega
      refine ⟨by omega, ?_, ?_⟩
      · intro y hy hh
        rcases List.mem_cons.1 hy with rfl | hy
        · omega
        · exact h2 y hy hh
      · rcases h3 with h3 | ⟨y, hy, hh⟩
        · by_cases hc : r.etag > m
          · rw [if_pos hc] at h3
            rw [if_pos hc]
            exact Or.inr ⟨r, by simp, hb, h3.symm⟩
          · rw [if_neg hc] at h3
            rw [if_neg hc]
            exact Or.inl h3
        · exact Or.inr ⟨y, List.mem_cons_of_mem _ hy, hh⟩

/-! ### The copy of the client -/

theorem foldl_put (h : Bytes) : ∀ (l : List Item) (c : Bytes → Option (Nat × Bytes)),
    (∀ i ∈ l, i.href ≠ h) → l.foldl put c h = c h
  | [], _, _ => rfl
  | i :: l, c, hn => by
    rw [List.foldl_cons, foldl_put h l _ fun j hj => hn j (List.mem_cons_of_mem _ hj)]
    unfold put
    rw [if_neg (fun e => hn i (by simp) e.symm)]

theorem foldl_put_mem (i : Item) : ∀ (l : List Item) (c : Bytes → Option (Nat × Bytes)),
    i ∈ l → (∀ j ∈ l, j.href = i.href → j = i) → l.foldl put c i.href = some (i.etag, i.content)
  | [], _, h, _ => by cases h
  | j :: l, c, hi, hu => by
    rw [List.foldl_cons]
    by_cases hm : i ∈ l
    · exact foldl_put_mem i l _ hm fun k hk => hu k (List.mem_cons_of_mem _ hk)
    · have e : i = j := (List.mem_cons.1 hi).resolve_right hm
      subst e
      rw [foldl_put i.href l _ ?_]
      · unfold put; rw [if_pos rfl]
      · intro k hk he
        have := hu k (List.mem_cons_of_mem _ hk) he
        exact hm (this ▸ hk)

/-- What may happen in the histories considered: time does not wrap the ETags around, a
resource is created with a path of its own, the access of the client does not grow, and the
client sends ETags it was sent. -/
def Allowed (dev : Nat) (s : Sys) : Op → Prop
  | .change _ _ t => max t.1 s.g + Etag.random t.2 < Etag.word
  | .create r t => max t.1 s.g + Etag.random t.2 < Etag.word ∧ ∀ r' ∈ iterate s.w dev, hrefOf r'.uri ≠ hrefOf r.uri
  | .delete _ => True
  | .access al => ∀ a, al a = true → s.allowed a = true
  | .sync q => ∀ e ∈ q.etag0.toList ++ q.inc.getD [], e ∈ s.known

/-- The start: the paths of the resources differ within the 256 bytes of an href, they have
ETags, and the client knows nothing. -/
structure Init (dev : Nat) (s : Sys) : Prop where
  paths : (iterate s.w dev).Pairwise fun r r' => hrefOf r.uri ≠ hrefOf r'.uri
  etags : ∀ r ∈ iterate s.w dev, 0 < r.etag ∧ r.etag ≤ s.g
  copy : s.copy = fun _ => none
  known : s.known = []

/-- The histories considered. -/
inductive Reach (dev : Nat) : Sys → Prop
  | init {s : Sys} : Init dev s → Reach dev s
  | step {s : Sys} {op : Op} : Reach dev s → Allowed dev s op → Reach dev (step dev s op)

/-- The invariant; `t` is the ETag of the generator when the client asked last. -/
structure Inv (dev : Nat) (s : Sys) (t : Nat) : Prop where
  paths : (iterate s.w dev).Pairwise fun r r' => hrefOf r.uri ≠ hrefOf r'.uri
  etags : ∀ r ∈ iterate s.w dev, 0 < r.etag ∧ r.etag ≤ s.g
  le : t ≤ s.g
  known : ∀ e ∈ s.known, e ≤ t
  copy : ∀ r, Readable s.w dev s.allowed r → r.etag ≤ t → s.copy (hrefOf r.uri) = some (r.etag, r.content)

theorem isKind_map (f : Res → Res) (hf : ∀ r, (f r).addr = r.addr) (w : World) (k : Kind) (d : Nat) (r : Res) :
    isKind (w.mapRes f) k d (f r) = isKind w k d r := by
  unfold isKind World.mapRes
  dsimp only
  cases w.core k d with
  | none => rfl
  | some c => simp [hf]

theorem isSvr_map (f : Res → Res) (hf : ∀ r, (f r).addr = r.addr) (w : World) (d : Nat) (r : Res) :
    isSvr (w.mapRes f) d (f r) = isSvr w d r := by
  unfold isSvr
  congr 1
  funext k
  exact isKind_map f hf w k d r

theorem filterMap_map' {α : Type} (g : α → Option Res) (f : Res → Res) : ∀ l : List α,
    (l.filterMap fun k => (g k).map f) = (l.filterMap g).map f
  | [] => rfl
  | k :: l => by
    rw [List.filterMap_cons, List.filterMap_cons, filterMap_map' g f l]
    cases g k <;> rfl

theorem filter_map' (f : Res → Res) (hf : ∀ r, (f r).device = r.device) (dev : Nat) (l : List Res) :
    (l.map f).filter (fun r => r.device == dev) = (l.filter fun r => r.device == dev).map f := by
  rw [List.filter_map]
  congr 1
  apply List.filter_congr
  intro r _
  simp [hf]

theorem iterate_map (f : Res → Res) (hf : ∀ r, (f r).device = r.device) (w : World) (dev : Nat) :
    iterate (w.mapRes f) dev = (iterate w dev).map f := by
  unfold iterate World.mapRes
  dsimp only
  rw [filter_map' f hf, filter_map' f hf, filterMap_map' (fun k => w.core k 0) f,
    List.map_append, List.map_append, List.map_append]
  congr 3
  rw [← filterMap_map']
  congr 1
  funext k
  split <;> rfl

theorem readable_map (f : Res → Res) (ha : ∀ r, (f r).addr = r.addr) (hd : ∀ r, (f r).device = r.device)
    (hs : ∀ r, (f r).disc = r.disc) (w : World) (dev : Nat) (al : Nat → Bool) (r : Res) :
    Readable (w.mapRes f) dev al r ↔ ∃ r0, r = f r0 ∧ Readable w dev al r0 := by
  unfold Readable
  rw [iterate_map f hd, List.mem_map]
  constructor
  · rintro ⟨⟨r0, h0, rfl⟩, h1, h2, h3, h4, h5⟩
    rw [isKind_map f ha, hd] at h2 h3
    rw [isSvr_map f ha, hd] at h4
    rw [hs] at h1
    rw [ha] at h5
    exact ⟨r0, rfl, h0, h1, h2, h3, h4, h5⟩
  · rintro ⟨r0, rfl, h0, h1, h2, h3, h4, h5⟩
    rw [isKind_map f ha, isKind_map f ha, isSvr_map f ha, hd, hs, ha]
    exact ⟨⟨r0, h0, rfl⟩, h1, h2, h3, h4, h5⟩

theorem same_of_path {l : List Res} (hp : l.Pairwise fun r r' => hrefOf r.uri ≠ hrefOf r'.uri)
    {r r' : Res} (h : r ∈ l) (h' : r' ∈ l) (e : hrefOf r.uri = hrefOf r'.uri) : r = r' := by
  induction l with
  | nil => cases h
  | cons a l ih =>
    rw [List.pairwise_cons] at hp
    rcases List.mem_cons.1 h with h1 | h1
    · rcases List.mem_cons.1 h' with h2 | h2
      · rw [h1, h2]
      · exact absurd e (h1 ▸ hp.1 r' h2)
    · rcases List.mem_cons.1 h' with h2 | h2
      · exact absurd e.symm (h2 ▸ hp.1 r h1)
      · exact ih hp.2 h1 h2

theorem change_inv {dev : Nat} {s : Sys} {t : Nat} (hi : Inv dev s t) (a : Nat) (c : Bytes) (tk : Etag.Tick)
    (ha : Allowed dev s (.change a c tk)) : Inv dev (step dev s (.change a c tk)) t := by
  have hg : Etag.get s.g tk = max tk.1 s.g + Etag.random tk.2 := Etag.get_eq _ _ ha
  have hr := Etag.random_pos tk.2
  simp only [step]
  generalize hf : (fun r : Res => if r.addr = a then { r with etag := Etag.get s.g tk, content := c } else r) = f
  have fa : ∀ r, (f r).addr = r.addr := by intro r; subst hf; dsimp only; split <;> rfl
  have fd : ∀ r, (f r).device = r.device := by intro r; subst hf; dsimp only; split <;> rfl
  have fs : ∀ r, (f r).disc = r.disc := by intro r; subst hf; dsimp only; split <;> rfl
  have fu : ∀ r, (f r).uri = r.uri := by intro r; subst hf; dsimp only; split <;> rfl
  have fe : ∀ r, (f r).etag = Etag.get s.g tk ∨ f r = r := by
    intro r; subst hf; dsimp only; split
    · exact Or.inl rfl
    · exact Or.inr rfl
  refine ⟨?_, ?_, ?_, hi.known, ?_⟩
  · dsimp only
    rw [iterate_map f fd, List.pairwise_map]
    simpa only [fu] using hi.paths
  · dsimp only
    rw [iterate_map f fd]
    intro r hr'
    obtain ⟨r0, h0, rfl⟩ := List.mem_map.1 hr'
    have := hi.etags r0 h0
    rcases fe r0 with h | h
    · rw [h]; omega
    · rw [h]; omega
  · have := hi.le; dsimp only; omega
  · intro r hr' hle
    dsimp only at hr' hle ⊢
    obtain ⟨r0, rfl, h0⟩ := (readable_map f fa fd fs s.w dev s.allowed r).1 hr'
    have hl := hi.le
    rcases fe r0 with h | h
    · rw [h] at hle; omega
    · rw [h] at hle ⊢
      exact hi.copy r0 h0 hle

theorem create_inv {dev : Nat} {s : Sys} {t : Nat} (hi : Inv dev s t) (r : Res) (tk : Etag.Tick)
    (ha : Allowed dev s (.create r tk)) : Inv dev (step dev s (.create r tk)) t := by
  have hg : Etag.get s.g tk = max tk.1 s.g + Etag.random tk.2 := Etag.get_eq _ _ ha.1
  have hr := Etag.random_pos tk.2
  have hl := hi.le
  simp only [step]
  have key : ∃ x y, iterate s.w dev = x ++ y ∧
      iterate { s.w with apps := { r with etag := Etag.get s.g tk } :: s.w.apps } dev =
        x ++ (if r.device = dev then [{ r with etag := Etag.get s.g tk }] else []) ++ y := by
    refine ⟨(platformKinds.filterMap fun k => s.w.core k 0) ++
      (iterKinds.filterMap fun k => if k = .con ∧ s.w.announced = false then none else s.w.core k dev),
      s.w.apps.filter (fun r => r.device == dev) ++ s.w.cols.filter (fun r => r.device == dev), ?_, ?_⟩
    · unfold iterate; simp only [List.append_assoc]
    · unfold iterate
      simp only [List.filter_cons, beq_iff_eq]
      by_cases hd : r.device = dev
      · simp [hd]
      · simp [hd]
  obtain ⟨x, y, e1, e2⟩ := key
  have hmem : ∀ r', r' ∈ iterate { s.w with apps := { r with etag := Etag.get s.g tk } :: s.w.apps } dev →
      r' ∈ iterate s.w dev ∨ r' = { r with etag := Etag.get s.g tk } := by
    intro r' h
    rw [e2] at h
    rw [e1]
    simp only [List.mem_append] at h ⊢
    rcases h with (h | h) | h
    · exact Or.inl (Or.inl h)
    · split at h
      · exact Or.inr (List.mem_singleton.1 h)
      · cases h
    · exact Or.inl (Or.inr h)
  refine ⟨?_, ?_, by dsimp only; omega, hi.known, ?_⟩
  · dsimp only
    rw [e2]
    have hp := hi.paths
    rw [e1] at hp
    split
    · have hne : ∀ z ∈ x ++ y, hrefOf z.uri ≠ hrefOf r.uri := fun z hz => ha.2 z (e1 ▸ hz)
      rw [List.append_assoc, List.pairwise_append] at *
      refine ⟨hp.1, ?_, ?_⟩
      · rw [List.singleton_append, List.pairwise_cons]
        exact ⟨fun z hz h => hne z (List.mem_append.2 (Or.inr hz)) h.symm, hp.2.1⟩
      · intro z hz z' hz'
        rw [List.singleton_append] at hz'
        rcases List.mem_cons.1 hz' with rfl | hz'
        · exact hne z (List.mem_append.2 (Or.inl hz))
        · exact hp.2.2 z hz z' hz'
    · simpa using hp
  · intro r' h
    dsimp only at h ⊢
    rcases hmem r' h with h | rfl
    · have := hi.etags r' h; omega
    · dsimp only; omega
  · intro r' h hle
    dsimp only at h hle ⊢
    obtain ⟨h0, h1, h2, h3, h4, h5⟩ := h
    rcases hmem r' h0 with h0 | rfl
    · exact hi.copy r' ⟨h0, h1, h2, h3, h4, h5⟩ hle
    · dsimp only at hle; omega

theorem delete_inv {dev : Nat} {s : Sys} {t : Nat} (hi : Inv dev s t) (a : Nat) :
    Inv dev (step dev s (.delete a)) t := by
  simp only [step]
  have sub : (iterate { s.w with apps := s.w.apps.filter fun r => r.addr ≠ a } dev).Sublist (iterate s.w dev) := by
    unfold iterate
    refine List.Sublist.append (List.Sublist.append (List.Sublist.refl _) ?_) (List.Sublist.refl _)
    exact List.Sublist.filter _ List.filter_sublist
  refine ⟨hi.paths.sublist sub, fun r hr => hi.etags r (sub.subset hr), hi.le, hi.known, ?_⟩
  rintro r ⟨h0, h1, h2, h3, h4, h5⟩ hle
  exact hi.copy r ⟨sub.subset h0, h1, h2, h3, h4, h5⟩ hle

theorem access_inv {dev : Nat} {s : Sys} {t : Nat} (hi : Inv dev s t) (al : Nat → Bool)
    (ha : Allowed dev s (.access al)) : Inv dev (step dev s (.access al)) t := by
  simp only [step]
  refine ⟨hi.paths, hi.etags, hi.le, hi.known, ?_⟩
  rintro r ⟨h0, h1, h2, h3, h4, h5⟩ hle
  exact hi.copy r ⟨h0, h1, h2, h3, h4, ha _ h5⟩ hle

theorem inBatch_weaken (w : World) (acl : Res → Bool) (r : Res) (h : inBatch w acl true r = true) :
    inBatch w acl false r = true := by
  simp only [inBatch, Bool.and_eq_true] at h ⊢
  exact ⟨⟨⟨h.1.1.1, by simp⟩, h.1.2⟩, h.2⟩

theorem sync_inv {dev : Nat} {s : Sys} {t : Nat} (hi : Inv dev s t) (q : BReq)
    (ha : Allowed dev s (.sync q)) : Inv dev (step dev s (.sync q)) s.g := by
  have hacl : s.acl = fun r => s.allowed r.addr := rfl
  -- a copy that is right for everything up to the ETag `e ≤ t` becomes right with the items
  have hitems : ∀ r, Readable s.w dev s.allowed r →
      ((batch s.w s.acl (fun _ => false) dev q).2.foldl put s.copy) (hrefOf r.uri) = some (r.etag, r.content) := by
    intro r hr
    have hmem := hr.1
    by_cases hin : (⟨hrefOf r.uri, r.etag, r.content⟩ : Item) ∈ (batch s.w s.acl (fun _ => false) dev q).2
    · refine foldl_put_mem ⟨hrefOf r.uri, r.etag, r.content⟩ _ _ hin ?_
      intro j hj he
      rw [hacl] at hj
      obtain ⟨r', hr', _, _, rfl⟩ := (batch_items s.w dev s.allowed _ q j).1 hj
      have := same_of_path hi.paths hr'.1 hmem he
      subst this; rfl
    · rw [foldl_put]
      · refine hi.copy r hr ?_
        have hn : ¬ (incEtag s.w s.acl dev q ≠ 0 → r.etag > incEtag s.w s.acl dev q) := by
          intro hh
          apply hin
          rw [hacl]
          exact (batch_items s.w dev s.allowed _ q _).2 ⟨r, hr, rfl, hh, rfl⟩
        have h0 : incEtag s.w s.acl dev q ≠ 0 := fun h => hn fun h' => absurd h h'
        have hle : r.etag ≤ incEtag s.w s.acl dev q := by
          by_cases hx : r.etag > incEtag s.w s.acl dev q
          · exact absurd (fun _ => hx) hn
          · omega
        have := hi.known _ (ha _ ((incEtag_sent s.w s.acl dev q).resolve_left h0))
        omega
      · intro j hj he
        rw [hacl] at hj
        obtain ⟨r', hr', h1, h2, rfl⟩ := (batch_items s.w dev s.allowed _ q j).1 hj
        have := same_of_path hi.paths hr'.1 hmem he
        subst this
        apply hin
        rw [hacl]
        exact (batch_items s.w dev s.allowed _ q _).2 ⟨r', hr, h1, h2, rfl⟩
  have hb := batchEtag_fold s.w s.acl (iterate s.w dev) 0
  have hbe : batchEtag s.w s.acl dev ≤ s.g := by
    rcases hb.2.2 with h | ⟨r, hr, _, h⟩
    · have : batchEtag s.w s.acl dev = 0 := h
      omega
    · have h' : r.etag = batchEtag s.w s.acl dev := h
      have := hi.etags r hr
      omega
  have hx : ∀ i ∈ (batch s.w s.acl (fun _ => false) dev q).2, i.etag ≤ s.g := by
    intro i hm
    rw [hacl] at hm
    obtain ⟨r, hr, _, _, rfl⟩ := (batch_items s.w dev s.allowed _ q i).1 hm
    exact (hi.etags r hr.1).2
  have hcases : (serveBatch s.w s.acl (fun _ => false) dev q).2.1 =
        (batch s.w s.acl (fun _ => false) dev q).2 ∨
      ((serveBatch s.w s.acl (fun _ => false) dev q).2.1 = [] ∧
        q.etag0 = some (batchEtag s.w s.acl dev)) := by
    unfold serveBatch; dsimp only
    split
    · exact Or.inl rfl
    · split
      · rename_i h; exact Or.inr ⟨rfl, h⟩
      · exact Or.inl rfl
  have htag : ∀ e ∈ (serveBatch s.w s.acl (fun _ => false) dev q).2.2.toList, e ≤ s.g := by
    intro e he
    unfold serveBatch at he; dsimp only at he
    split at he
    · cases he
    · split at he
      all_goals
        have : e = batchEtag s.w s.acl dev := by simpa using he
        omega
  simp only [step]
  refine ⟨hi.paths, hi.etags, Nat.le_refl _, ?_, ?_⟩
  · intro e he
    simp only [List.mem_append, List.mem_map] at he
    rcases he with (he | he) | ⟨i, hm, rfl⟩
    · have := hi.known e he
      have := hi.le
      omega
    · exact htag e he
    · rcases hcases with h | ⟨h, _⟩
      · rw [h] at hm; exact hx i hm
      · rw [h] at hm; cases hm
  · intro r hr hle
    dsimp only at hr hle ⊢
    rcases hcases with h | ⟨h, h0⟩
    · rw [h]; exact hitems r hr
    · rw [h, List.foldl_nil]
      refine hi.copy r hr ?_
      have hk := hi.known _ (ha (batchEtag s.w s.acl dev) (by rw [h0]; simp))
      have := (readable_iff s.w dev s.allowed r).1 hr
      have h1 : r.etag ≤ batchEtag s.w s.acl dev :=
        hb.2.1 r this.1 (inBatch_weaken _ _ _ this.2)
      omega

theorem reach_inv {dev : Nat} {s : Sys} (h : Reach dev s) : ∃ t, Inv dev s t := by
  induction h with
  | init hi =>
    refine ⟨0, hi.paths, hi.etags, Nat.zero_le _, ?_, ?_⟩
    · rw [hi.known]; simp
    · intro r hr hle
      have := hi.etags r hr.1
      omega
  | @step s op _ ha ih =>
    obtain ⟨t, ht⟩ := ih
    cases op with
    | change a c tk => exact ⟨t, change_inv ht a c tk ha⟩
    | create r tk => exact ⟨t, create_inv ht r tk ha⟩
    | delete a => exact ⟨t, delete_inv ht a⟩
    | access al => exact ⟨t, access_inv ht al ha⟩
    | sync q => exact ⟨_, sync_inv ht q ha⟩

/-- C113: in every history of changes, creations, deletions, restrictions of access and
batch requests with any of the ETags it was sent, a client that keeps what it is sent has,
right after each answer, the current representation of every resource it may read. What the
full claim has beside this is false: access that grows and resources that are deleted. -/
theorem sync_up_to_date_partial (dev : Nat) (s : Sys) (q : BReq) (h : Reach dev s)
    (ha : Allowed dev s (.sync q)) : UpToDate dev (step dev s (.sync q)) := by
  obtain ⟨t, ht⟩ := reach_inv h
  have hi := sync_inv ht q ha
  intro r hr
  exact hi.copy r hr (hi.etags r hr.1).2

/-- C113: a request that asks for no increments is answered with everything. -/
theorem full_answer (w : World) (dev : Nat) (al : Nat → Bool) (q : BReq) (hq : q.inc = none) (r : Res)
    (h : Readable w dev al r) :
    (⟨r.uri.take 256, r.etag, r.content⟩ : Item) ∈ (batch w (fun r => al r.addr) (fun _ => false) dev q).2 := by
  refine (batch_items w dev al _ q _).2 ⟨r, h, rfl, fun hh => absurd ?_ hh, rfl⟩
  unfold incEtag; rw [hq]

/-! ### Cases -/

/-- The device of the examples with ETags; the client may read everything. -/
def exSys : Sys where
  w := { exWorld with apps := [{ exRes 4 "/light/1" "oic.r.light" with etag := 5, content := b "on" },
                               { exRes 5 "/light/2" "oic.r.light" with etag := 7, content := b "off" }] }
  g := 10
  allowed := fun _ => true
  copy := fun _ => none
  known := []

theorem exSys_init : Init 0 exSys :=
  ⟨by decide +kernel, by decide +kernel, rfl, rfl⟩

/-- The client asks for everything, a light changes, and it asks for the changes since the
ETag of the batch: the answer holds the changed light only. -/
example :
    let s := step 0 exSys (.sync ⟨none, some []⟩)
    let s' := step 0 s (.change 4 (b "dim") (20, 0))
    s.known.contains 7 = true ∧ s.copy (b "/light/1") = some (5, b "on") ∧
    (serveBatch s'.w s'.acl (fun _ => false) 0 ⟨some 7, some [7]⟩).2.1 = [⟨b "/light/1", 21, b "dim"⟩] := by
  decide +kernel

/-- A history that meets the hypotheses of `sync_up_to_date_partial`. -/
example : ∃ s q, Reach 0 s ∧ Allowed 0 s (.sync q) ∧ q.inc = some [7] := by
  have r1 : Reach 0 (step 0 exSys (.sync ⟨none, none⟩)) :=
    Reach.step (Reach.init exSys_init) (by intro e he; simp at he)
  have r2 := Reach.step (op := .change 4 (b "dim") (20, 0)) r1 (by
    show max 20 10 + Etag.random 0 < Etag.word
    decide +kernel)
  refine ⟨_, ⟨none, some [7]⟩, r2, ?_, rfl⟩
  intro e he
  have : e = 7 := by simpa using he
  subst this
  decide +kernel

/-- C113: a resource that the client may read only later keeps its older ETag and is missing
from every incremental answer, although the answer is 2.03 Valid. -/
theorem granted_missing_false :
    let s := step 0 { exSys with allowed := fun a => a != 4 } (.sync ⟨none, none⟩)
    let s' := step 0 s (.access fun _ => true)
    let s'' := step 0 s' (.sync ⟨none, some [7]⟩)
    s.known.contains 7 = true ∧
    (serveBatch s'.w s'.acl (fun _ => false) 0 ⟨none, some [7]⟩).1 = .notModified ∧
    s''.copy (b "/light/1") = none ∧
    Readable s''.w 0 s''.allowed { exRes 4 "/light/1" "oic.r.light" with etag := 5, content := b "on" } := by
  refine ⟨by decide +kernel, by decide +kernel, by decide +kernel, ?_⟩
  exact ⟨by decide +kernel, by decide +kernel, by decide +kernel, by decide +kernel, by decide +kernel, rfl⟩

/-- C113: the client is not told that a resource was deleted: the answer is 2.03 Valid and
the copy keeps a resource that does not exist. -/
theorem deleted_kept_false :
    let s := step 0 exSys (.sync ⟨none, none⟩)
    let s' := step 0 s (.delete 4)
    let s'' := step 0 s' (.sync ⟨some 7, some [7]⟩)
    s.known.contains 7 = true ∧
    (serveBatch s'.w s'.acl (fun _ => false) 0 ⟨some 7, some [7]⟩).1 = .notModified ∧
    s''.copy (b "/light/1") = some (5, b "on") ∧
    ∀ r ∈ iterate s''.w 0, hrefOf r.uri ≠ b "/light/1" := by
  exact ⟨by decide +kernel, by decide +kernel, by decide +kernel, by decide +kernel⟩

/-- C113: paths that differ only after 256 bytes have the same href, so one element
of the answer replaces the other in the client's copy. -/
theorem long_path_false : ∃ p p' : Bytes, p ≠ p' ∧
    itemOf { exRes 4 "" "oic.r.light" with uri := p } = itemOf { exRes 4 "" "oic.r.light" with uri := p' } :=
  ⟨List.replicate 257 97, List.replicate 256 97 ++ [98], by decide +kernel, by decide +kernel⟩

end Verif.Discovery
