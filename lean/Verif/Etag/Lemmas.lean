import Verif.Etag.Model
import Verif.Rep.Props

/-! Lemmas about the ETags of resources. -/

namespace Verif.Etag

open Verif.Rep (Bytes Rep Val b)

variable {κ : Type}

theorem random_pos (v : BitVec 32) : 1 ≤ random v ∧ random v ≤ 1000 := by
  unfold random; omega

/-- `oc_etag_get` without overflow. -/
theorem get_eq (g : Nat) (t : Tick) (h : max t.1 g + random t.2 < word) :
    get g t = max t.1 g + random t.2 := by
  have := random_pos t.2
  unfold get setGlobal
  have e : (if t.1 > g then t.1 else g) = max t.1 g := by split <;> omega
  dsimp only
  rw [e, Nat.mod_eq_of_lt h, if_neg (by omega)]

theorem get_pos (g : Nat) (t : Tick) : 1 ≤ get g t := by
  unfold get setGlobal; dsimp only
  generalize (if t.1 > g then t.1 else g) + random t.2 = x
  split <;> omega

theorem get_lt (g : Nat) (t : Tick) : get g t < word := by
  have hw : 1 < word := by unfold word; decide
  unfold get setGlobal; dsimp only
  generalize (if t.1 > g then t.1 else g) + random t.2 = x
  split
  · exact hw
  · exact Nat.mod_lt _ (by omega)

/-- What is known about the generator. -/
structure GInv (fl : Nat) (s : G κ) : Prop where
  lt : s.g < word
  le : ∀ x ∈ s.own, x.2.1 ≤ max s.g fl ∧ x.2.1 < word
  fn : ∀ x ∈ s.own, ∀ y ∈ s.own, x.1 = y.1 → x.2.1 = y.2.1 → x.2.2 = y.2.2

/-- A resource's ETag was given to it for its payload. -/
def ResOk (own : List (Key × Nat × κ)) (r : Res κ) : Prop :=
  r.etag ≠ 0 → (r.key, r.etag, r.content) ∈ own

theorem getG (s : G κ) (t : Tick) (h : (s.get t).wrapped = false) :
    s.wrapped = false ∧ (s.get t).g = max t.1 s.g + random t.2 ∧ (s.get t).g < word ∧
      (s.get t).own = s.own := by
  have e : (if t.1 > s.g then t.1 else s.g) = max t.1 s.g := by split <;> omega
  simp only [G.get, e, Bool.or_eq_false_iff, decide_eq_false_iff_not] at h ⊢
  exact ⟨h.1, get_eq _ _ (by omega), get_lt _ _, trivial⟩

theorem GInv.mono {fl : Nat} {s : G κ} (hi : GInv fl s) (g' : Nat) (h : s.g ≤ g') (hl : g' < word)
    (w : Bool) : GInv fl { s with g := g', wrapped := w } := by
  refine ⟨hl, fun x hx => ?_, hi.fn⟩
  have := hi.le x hx
  exact ⟨by dsimp only; omega, this.2⟩

theorem GInv.get {fl : Nat} {s : G κ} (hi : GInv fl s) (t : Tick) (h : (s.get t).wrapped = false) :
    GInv fl (s.get t) := by
  obtain ⟨_, e, hl, ho⟩ := getG s t h
  have := hi.mono (s.get t).g (by omega) hl (s.get t).wrapped
  simpa only [← ho] using this

theorem assign_inv {fl : Nat} {s : G κ} (hi : GInv fl s) (r : Res κ) (t : Tick) (hc : fl ≤ t.1)
    (h : (assign s r t).1.wrapped = false) :
    s.wrapped = false ∧ GInv fl (assign s r t).1 ∧ (∀ x ∈ s.own, x ∈ (assign s r t).1.own) ∧
      ResOk (assign s r t).1.own (assign s r t).2 ∧ s.g ≤ (assign s r t).1.g := by
  have hw : (s.get t).wrapped = false := h
  obtain ⟨w0, e, hl, ho⟩ := getG s t hw
  have hp := random_pos t.2
  have big : ∀ x ∈ s.own, x.2.1 < (s.get t).g := by
    intro x hx; have := hi.le x hx; omega
  refine ⟨w0, ⟨hl, ?_, ?_⟩, ?_, ?_, ?_⟩
  · intro x hx
    rcases List.mem_cons.1 hx with rfl | hx
    · exact ⟨by show (s.get t).g ≤ max (s.get t).g fl; omega, hl⟩
    · rw [ho] at hx
      have := big x hx
      have := hi.le x hx
      exact ⟨by show x.2.1 ≤ max (s.get t).g fl; omega, this.2⟩
  · intro x hx y hy hk he
    rcases List.mem_cons.1 hx with rfl | hx <;> rcases List.mem_cons.1 hy with rfl | hy
    · rfl
    · rw [ho] at hy; have := big y hy; dsimp only at he; omega
    · rw [ho] at hx; have := big x hx; dsimp only at he; omega
    · rw [ho] at hx hy; exact hi.fn x hx y hy hk he
  · intro x hx
    exact List.mem_cons_of_mem _ (by rw [ho]; exact hx)
  · intro _; exact List.mem_cons_self ..
  · show s.g ≤ (s.get t).g; omega

/-- The flag of overflow is never taken back. -/
theorem assignAll_wrapped (sel : Res κ → Bool) (inp : Nat → Tick) (l : List (Res κ)) :
    ∀ k (s : G κ), (assignAll sel inp k s l).2.1.wrapped = false → s.wrapped = false := by
  induction l with
  | nil => intro k s h; exact h
  | cons r l ih =>
    intro k s h
    unfold assignAll at h
    split at h
    · have := ih _ _ h
      have hw : (s.get (inp k)).wrapped = false := this
      exact (getG s _ hw).1
    · exact ih _ _ h

theorem assignAll_inv {fl : Nat} (sel : Res κ → Bool) (inp : Nat → Tick) (hc : ∀ i, fl ≤ (inp i).1)
    (l : List (Res κ)) :
    ∀ k (s : G κ), GInv fl s → (assignAll sel inp k s l).2.1.wrapped = false →
      GInv fl (assignAll sel inp k s l).2.1 ∧ s.g ≤ (assignAll sel inp k s l).2.1.g ∧
      (∀ x ∈ s.own, x ∈ (assignAll sel inp k s l).2.1.own) ∧
      ((∀ r ∈ l, sel r = false → ResOk s.own r) →
        ∀ r ∈ (assignAll sel inp k s l).2.2, ResOk (assignAll sel inp k s l).2.1.own r) ∧
      (assignAll sel inp k s l).2.2.map (fun r => (r.grp, r.uri, r.content)) =
        l.map (fun r => (r.grp, r.uri, r.content)) := by
  induction l with
  | nil =>
    intro k s hi _
    exact ⟨hi, Nat.le_refl _, fun x h => h, fun _ r hr => (by cases hr), rfl⟩
  | cons r l ih =>
    intro k s hi h
    rw [assignAll] at h ⊢
    by_cases hs : sel r = true
    · rw [if_pos hs] at h ⊢
      have hw := assignAll_wrapped _ _ _ _ _ h
      obtain ⟨_, a1, a2, a3, a4⟩ := assign_inv hi r (inp k) (hc k) hw
      obtain ⟨b1, b2, b3, b4, b5⟩ := ih (k + 1) _ a1 h
      refine ⟨b1, Nat.le_trans a4 b2, fun x hx => b3 x (a2 x hx), ?_, ?_⟩
      · intro hr x hx
        rcases List.mem_cons.1 hx with rfl | hx
        · exact fun hz => b3 _ (a3 hz)
        · exact b4 (fun y hy hn hz => a2 _ (hr y (List.mem_cons_of_mem _ hy) hn hz)) x hx
      · simp only [List.map_cons, b5]; rfl
    · rw [if_neg hs] at h ⊢
      obtain ⟨b1, b2, b3, b4, b5⟩ := ih k _ hi h
      refine ⟨b1, b2, b3, ?_, ?_⟩
      · intro hr x hx
        rcases List.mem_cons.1 hx with rfl | hx
        · exact fun hz => b3 _ (hr x (List.mem_cons_self ..) (by simpa using hs) hz)
        · exact b4 (fun y hy => hr y (List.mem_cons_of_mem _ hy)) x hx
      · simp only [List.map_cons, b5]

/-! ### The files -/

theorem toI64_of (n : Nat) (h : n < word) : ofI64 (toI64 n) = n := by
  unfold ofI64 toI64
  rw [BitVec.ofInt_toInt, BitVec.toNat_ofNat]; exact Nat.mod_eq_of_lt h

/-- What is known about a file: an ETag that is found in it for a resource was
given to that resource for its payload. -/
def StoreOk (crc : κ → Option Nat) (own : List (Key × Nat × κ)) (grp : Group) (rep : Rep) : Prop :=
  ∀ r : Res κ, r.grp = grp → uriOk r.uri = true → ∀ e, readEtag crc rep r = some e →
    (r.key, e, r.content) ∈ own

theorem uriOk_usable (u : Bytes) (h : uriOk u = true) : Rep.Usable u := by
  unfold uriOk at h
  simp only [Bool.and_eq_true, bne_iff_ne, ne_eq, decide_eq_true_eq, Bool.not_eq_true',
    List.length_eq_zero_iff] at h
  refine ⟨h.1.1, h.1.2, ?_⟩
  intro hm
  have : u.contains 0 = true := by simpa using hm
  rw [this] at h; exact absurd h.2 (by decide)

/-- The entry written for a resource. -/
theorem getInt_entry (e c : Int) :
    Rep.getInt [(b "etag", .int e), (b "crc", .int c)] (b "etag") = .ok (some e) ∧
    Rep.getInt [(b "etag", .int e), (b "crc", .int c)] (b "crc") = .ok (some c) := by
  constructor <;> rfl

theorem encodeGroup_ok (crc : κ → Option Nat) (hcrc : ∀ c x, crc c = some x → x < word)
    (inj : ∀ c c' x, crc c = some x → crc c' = some x → c = c')
    (own : List (Key × Nat × κ)) (hlt : ∀ x ∈ own, x.2.1 < word) (grp : Group) (l : List (Res κ))
    (hl : ∀ r ∈ l, ResOk own r) : StoreOk crc own grp (encodeGroup crc grp l) := by
  intro r hg hu e he
  unfold readEtag at he
  split at he
  next o ho =>
    have := ((Rep.getObject_spec (encodeGroup crc grp l) r.uri (uriOk_usable _ hu)).1 o).1 ho
    obtain ⟨bef, aft, heq, _⟩ := this
    have hm : (r.uri, Val.obj o) ∈ encodeGroup crc grp l := by rw [heq]; simp
    unfold encodeGroup at hm
    obtain ⟨r', hr', hen⟩ := List.mem_filterMap.1 hm
    obtain ⟨hr', hgr⟩ := List.mem_filter.1 hr'
    have hgr : r'.grp = grp := by simpa using hgr
    unfold encodeRes at hen
    split at hen
    · cases hen
    · split at hen
      · cases hen
      next _ hz =>
        split at hen
        · cases hen
        next c hcc =>
          simp only [Option.some.injEq, Prod.mk.injEq, Val.obj.injEq] at hen
          obtain ⟨hur, ho'⟩ := hen
          subst ho'
          obtain ⟨g1, g2⟩ := getInt_entry (toI64 r'.etag) (toI64 c)
          rw [g1, g2] at he
          dsimp only at he
          have hown := hl r' hr' hz
          rw [toI64_of c (hcrc _ _ hcc), toI64_of r'.etag (hlt _ hown)] at he
          split at he
          · cases he
          · split at he
            · cases he
            next x hx =>
              split at he
              next hxc =>
                simp only [Option.some.injEq] at he
                subst he
                subst hxc
                have := inj _ _ _ hcc hx
                have hk : r.key = r'.key := by unfold Res.key; rw [hg, hgr, hur]
                rw [hk, ← this]; exact hown
              · cases he
  next => cases he

theorem loadGroup_inv (crc : κ → Option Nat) (grp : Group) (upd : Bool) (rep : Rep)
    (own : List (Key × Nat × κ)) (hst : StoreOk crc own grp rep) (l : List (Res κ)) :
    ∀ m, (∀ r ∈ l, ResOk own r ∧ uriOk r.uri = true) →
      m ≤ (loadGroup crc grp upd rep m l).1 ∧
      ((∃ x ∈ own, (loadGroup crc grp upd rep m l).1 = x.2.1) ∨ (loadGroup crc grp upd rep m l).1 = m) ∧
      ∀ r ∈ (loadGroup crc grp upd rep m l).2, ResOk own r ∧ uriOk r.uri = true := by
  induction l with
  | nil => intro m _; exact ⟨Nat.le_refl _, .inr rfl, fun r hr => by cases hr⟩
  | cons r l ih =>
    intro m hl
    have hl' := fun x hx => hl x (List.mem_cons_of_mem _ hx)
    rw [loadGroup]
    split
    · obtain ⟨i1, i2, i3⟩ := ih m hl'
      refine ⟨i1, i2, ?_⟩
      intro x hx
      rcases List.mem_cons.1 hx with rfl | hx
      · exact hl _ (List.mem_cons_self ..)
      · exact i3 x hx
    next e he =>
      have hg : r.grp = grp := by
        by_cases hg : r.grp = grp
        · exact hg
        · rw [if_neg hg] at he; cases he
      rw [if_pos hg] at he
      have ho := hst r hg (hl r (List.mem_cons_self ..)).2 e he
      obtain ⟨i1, i2, i3⟩ := ih (if e > m then e else m) hl'
      have hle : m ≤ if e > m then e else m := by split <;> omega
      refine ⟨Nat.le_trans hle i1, ?_, ?_⟩
      · rcases i2 with i2 | i2
        · exact .inl i2
        · dsimp only; rw [i2]
          split
          · exact .inl ⟨_, ho, rfl⟩
          · exact .inr rfl
      · intro x hx
        rcases List.mem_cons.1 hx with rfl | hx
        · cases upd with
          | true => exact ⟨fun _ => ho, (hl r (List.mem_cons_self ..)).2⟩
          | false => exact hl r (List.mem_cons_self ..)
        · exact i3 x hx

theorem loadStep_inv (crc : κ → Option Nat) (store : Group → Option Rep) (fso : Bool) (can : Group → Bool)
    (own : List (Key × Nat × κ)) (hst : ∀ g rep, store g = some rep → StoreOk crc own g rep)
    (grp : Group) (l : List (Res κ)) (m : Nat) (hl : ∀ r ∈ l, ResOk own r ∧ uriOk r.uri = true) :
    m ≤ (loadStep crc store fso can m l grp).1 ∧
    ((∃ x ∈ own, (loadStep crc store fso can m l grp).1 = x.2.1) ∨
      (loadStep crc store fso can m l grp).1 = m) ∧
    ∀ r ∈ (loadStep crc store fso can m l grp).2, ResOk own r ∧ uriOk r.uri = true := by
  have hc : ∀ r ∈ (if !fso && can grp then clearGroup grp l else l), ResOk own r ∧ uriOk r.uri = true := by
    split
    · intro r hr
      unfold clearGroup at hr
      obtain ⟨r', h1, rfl⟩ := List.mem_map.1 hr
      split
      · exact ⟨fun h => absurd rfl h, (hl r' h1).2⟩
      · exact hl r' h1
    · exact hl
  unfold loadStep
  dsimp only
  cases hs : store grp with
  | none => exact ⟨Nat.le_refl _, .inr rfl, hc⟩
  | some rep => exact loadGroup_inv crc grp (can grp) rep own (hst _ _ hs) _ m hc

theorem loadAll_inv (crc : κ → Option Nat) (store : Group → Option Rep) (fso : Bool) (can : Group → Bool)
    (own : List (Key × Nat × κ)) (hst : ∀ g rep, store g = some rep → StoreOk crc own g rep)
    (gs : List Group) :
    ∀ (m : Nat) (l : List (Res κ)), (∀ r ∈ l, ResOk own r ∧ uriOk r.uri = true) →
    m ≤ (loadAll crc store fso can gs m l).1 ∧
    ((∃ x ∈ own, (loadAll crc store fso can gs m l).1 = x.2.1) ∨
      (loadAll crc store fso can gs m l).1 = m) ∧
    ∀ r ∈ (loadAll crc store fso can gs m l).2, ResOk own r ∧ uriOk r.uri = true := by
  induction gs with
  | nil => intro m l hl; exact ⟨Nat.le_refl _, .inr rfl, hl⟩
  | cons g gs ih =>
    intro m l hl
    rw [loadAll]
    obtain ⟨a1, a2, a3⟩ := loadStep_inv crc store fso can own hst g l m hl
    obtain ⟨b1, b2, b3⟩ := ih _ _ a3
    refine ⟨Nat.le_trans a1 b1, ?_, b3⟩
    rcases b2 with b2 | b2
    · exact .inl b2
    · rw [b2]; exact a2

theorem bump_inv {fl : Nat} {s : G κ} (hi : GInv fl s) (m : Nat) (v : BitVec 32) (hm : s.g ≤ m)
    (h : (bump s m v).wrapped = false) :
    s.wrapped = false ∧ GInv fl (bump s m v) ∧ (bump s m v).own = s.own ∧ s.g ≤ (bump s m v).g := by
  have hp := random_pos v
  simp only [bump, Bool.or_eq_false_iff, decide_eq_false_iff_not] at h
  have e : setGlobal ((m + random v) % word) = m + random v := by
    rw [Nat.mod_eq_of_lt (by omega), setGlobal, if_neg (by omega)]
  refine ⟨h.1, ?_, rfl, ?_⟩
  · unfold bump
    exact hi.mono _ (by rw [e]; omega) (by rw [e]; omega) _
  · unfold bump; dsimp only; rw [e]; omega

theorem uris_of_map (l l' : List (Res κ))
    (h : l'.map (fun r => (r.grp, r.uri, r.content)) = l.map (fun r => (r.grp, r.uri, r.content)))
    (hl : ∀ r ∈ l, uriOk r.uri = true) : ∀ r ∈ l', uriOk r.uri = true := by
  intro r hr
  have : (r.grp, r.uri, r.content) ∈ l'.map (fun r => (r.grp, r.uri, r.content)) := List.mem_map.2 ⟨r, hr, rfl⟩
  rw [h] at this
  obtain ⟨r', h1, h2⟩ := List.mem_map.1 this
  simp only [Prod.mk.injEq] at h2
  rw [← h2.2.1]; exact hl r' h1

theorem fillAll_inv {fl : Nat} (can : Group → Bool) (inp : Nat → Tick) (hc : ∀ i, fl ≤ (inp i).1)
    (gs : List Group) :
    ∀ (k : Nat) (s : G κ) (l : List (Res κ)), GInv fl s → (fillAll can inp gs k s l).1.wrapped = false →
      (∀ r ∈ l, ResOk s.own r ∧ uriOk r.uri = true) →
      s.wrapped = false ∧ GInv fl (fillAll can inp gs k s l).1 ∧ s.g ≤ (fillAll can inp gs k s l).1.g ∧
      (∀ x ∈ s.own, x ∈ (fillAll can inp gs k s l).1.own) ∧
      ∀ r ∈ (fillAll can inp gs k s l).2, ResOk (fillAll can inp gs k s l).1.own r ∧ uriOk r.uri = true := by
  induction gs with
  | nil => intro k s l hi h hl; exact ⟨h, hi, Nat.le_refl _, fun x h => h, hl⟩
  | cons g gs ih =>
    intro k s l hi h hl
    rw [fillAll] at h ⊢
    by_cases hg : can g = true
    · rw [if_pos hg] at h ⊢
      dsimp only at h ⊢
      have hw : (assignAll (fun r => r.grp == g && r.etag == 0) inp k s l).2.1.wrapped = false := by
        exact fillWrapped can inp gs _ _ _ h
      obtain ⟨a1, a2, a3, a4, a5⟩ := assignAll_inv (fun r => r.grp == g && r.etag == 0) inp hc l k s hi hw
      have hl2 : ∀ r ∈ (assignAll (fun r => r.grp == g && r.etag == 0) inp k s l).2.2,
          ResOk (assignAll (fun r => r.grp == g && r.etag == 0) inp k s l).2.1.own r ∧ uriOk r.uri = true :=
        fun r hr => ⟨a4 (fun r hr _ => (hl r hr).1) r hr, uris_of_map _ _ a5 (fun r hr => (hl r hr).2) r hr⟩
      obtain ⟨b0, b1, b2, b3, b4⟩ := ih _ _ _ a1 h hl2
      exact ⟨assignAll_wrapped _ _ _ _ _ hw, b1, Nat.le_trans a2 b2, fun x hx => b3 x (a3 x hx), b4⟩
    · rw [if_neg hg] at h ⊢
      exact ih _ _ _ hi h hl
where
  fillWrapped (can : Group → Bool) (inp : Nat → Tick) (gs : List Group) :
      ∀ (k : Nat) (s : G κ) (l : List (Res κ)), (fillAll can inp gs k s l).1.wrapped = false →
        s.wrapped = false := by
    induction gs with
    | nil => intro k s l h; exact h
    | cons g gs ih =>
      intro k s l h
      rw [fillAll] at h
      split at h
      · exact assignAll_wrapped _ _ _ _ _ (ih _ _ _ h)
      · exact ih _ _ _ h

/-! ### The whole state -/

/-- The invariant of a history. -/
structure Inv (crc : κ → Option Nat) (s : St κ) : Prop where
  gen : GInv s.floor s.gen
  res : ∀ r ∈ s.res, ResOk s.gen.own r ∧ uriOk r.uri = true
  store : ∀ g rep, s.store g = some rep → StoreOk crc s.gen.own g rep

/-- Every reading of the clock in the operation is at least `fl`, and changes are
announced at once. -/
def Clocked (fl : Nat) : Op κ → Prop
  | .add _ _ _ t => fl ≤ t.1
  | .change _ _ t => fl ≤ t.1
  | .modify _ _ => False
  | .notify _ t => fl ≤ t.1
  | .load _ _ t _ inp => fl ≤ t.1 ∧ ∀ i, fl ≤ (inp i).1
  | .reset _ inp => ∀ i, fl ≤ (inp i).1
  | _ => True

theorem StoreOk.mono {crc : κ → Option Nat} {own own' : List (Key × Nat × κ)} {g : Group} {rep : Rep}
    (h : StoreOk crc own g rep) (hs : ∀ x ∈ own, x ∈ own') : StoreOk crc own' g rep :=
  fun r a c e he => hs _ (h r a c e he)

theorem step_inv (crc : κ → Option Nat) (hcrc : ∀ c x, crc c = some x → x < word)
    (inj : ∀ c c' x, crc c = some x → crc c' = some x → c = c') (s : St κ) (hi : Inv crc s) (o : Op κ)
    (hc : Clocked s.floor o) (hw : (step crc s o).gen.wrapped = false) :
    s.gen.wrapped = false ∧ Inv crc (step crc s o) ∧ (∀ x ∈ s.gen.own, x ∈ (step crc s o).gen.own) ∧
      (step crc s o).ndev = s.ndev := by
  cases o with
  | add grp uri c t =>
    rw [step] at hw ⊢
    split at hw
    next h =>
      rw [if_pos h]
      obtain ⟨a0, a1, a2, a3, a4⟩ := assign_inv hi.gen ⟨grp, uri, 0, c⟩ t hc hw
      refine ⟨a0, ⟨a1, ?_, fun g rep hg => (hi.store g rep hg).mono a2⟩, a2, rfl⟩
      intro r hr
      rcases List.mem_append.1 hr with hr | hr
      · exact ⟨fun hz => a2 _ ((hi.res r hr).1 hz), (hi.res r hr).2⟩
      · have := List.mem_singleton.1 hr
        subst this
        exact ⟨a3, by simp only [Bool.and_eq_true] at h; exact h.1⟩
    next h =>
      rw [if_neg h]; exact ⟨hw, hi, fun x h => h, rfl⟩
  | remove k =>
    exact ⟨hw, ⟨hi.gen, fun r hr => hi.res r (List.mem_filter.1 hr).1, hi.store⟩, fun x h => h, rfl⟩
  | change k c t =>
    rw [step] at hw ⊢
    unfold changeAll at hw ⊢
    dsimp only at hw ⊢
    obtain ⟨a1, a2, a3, a4, a5⟩ := assignAll_inv (fun r => r.key == k) (fun _ => t) (fun _ => hc) _ 0 s.gen
      hi.gen hw
    refine ⟨assignAll_wrapped _ _ _ _ _ hw, ⟨a1, ?_, fun g rep hg => (hi.store g rep hg).mono a3⟩, a3, rfl⟩
    intro r hr
    refine ⟨a4 ?_ r hr, uris_of_map _ _ a5 ?_ r hr⟩
    · intro x hx hs
      obtain ⟨y, hy, rfl⟩ := List.mem_map.1 hx
      by_cases hk : y.key = k
      · rw [if_pos hk] at hs
        have : (y.key == k) = false := hs
        rw [hk] at this; simp at this
      · rw [if_neg hk]; exact (hi.res y hy).1
    · intro x hx
      obtain ⟨y, hy, rfl⟩ := List.mem_map.1 hx
      split
      · exact (hi.res y hy).2
      · exact (hi.res y hy).2
  | modify k c => exact absurd hc id
  | notify k t =>
    rw [step] at hw ⊢
    dsimp only at hw ⊢
    obtain ⟨a1, a2, a3, a4, a5⟩ := assignAll_inv (fun r => r.key == k) (fun _ => t) (fun _ => hc) _ 0 s.gen
      hi.gen hw
    exact ⟨assignAll_wrapped _ _ _ _ _ hw, ⟨a1, fun r hr => ⟨a4 (fun x hx _ => (hi.res x hx).1) r hr,
      uris_of_map _ _ a5 (fun x hx => (hi.res x hx).2) r hr⟩, fun g rep hg => (hi.store g rep hg).mono a3⟩,
      a3, rfl⟩
  | dump ok =>
    refine ⟨hw, ⟨hi.gen, hi.res, ?_⟩, fun x h => h, rfl⟩
    intro g rep hg
    simp only [step] at hg
    split at hg
    · cases hg
      exact encodeGroup_ok crc hcrc inj _ (fun x hx => (hi.gen.le x hx).2) g s.res (fun r hr => (hi.res r hr).1)
    · exact hi.store g rep hg
  | clearStorage =>
    refine ⟨hw, ⟨hi.gen, hi.res, ?_⟩, fun x h => h, rfl⟩
    intro g rep hg
    simp only [step, clearStore] at hg
    split at hg
    · cases hg
    · exact hi.store g rep hg
  | load fso can t v inp =>
    rw [step] at hw ⊢
    unfold load at hw ⊢
    dsimp only at hw ⊢
    have key : (bump (s.gen.get t) (loadAll crc s.store fso (canGroup can)
          (groups s.ndev) (s.gen.get t).g s.res).1 v).wrapped = false := by
      split at hw
      · exact hw
      · exact fillAll_inv.fillWrapped _ _ _ _ _ _ hw
    have hwg : (s.gen.get t).wrapped = false := by
      simp only [bump, Bool.or_eq_false_iff] at key; exact key.1
    obtain ⟨w0, _, _, ho⟩ := getG s.gen t hwg
    have hg1 := hi.gen.get t hwg
    obtain ⟨l1, l2, l3⟩ := loadAll_inv crc s.store fso (canGroup can)
      s.gen.own hi.store (groups s.ndev) (s.gen.get t).g s.res hi.res
    obtain ⟨_, b1, b2, b3⟩ := bump_inv hg1 _ v l1 key
    rw [ho] at b2
    split at hw
    next hf =>
      rw [if_pos hf]
      refine ⟨w0, ⟨b1, ?_, ?_⟩, ?_, rfl⟩
      · intro r hr; dsimp only; rw [b2]; exact l3 r hr
      · intro g rep hg; dsimp only; rw [b2]; exact hi.store g rep hg
      · intro x hx; dsimp only; rw [b2]; exact hx
    next hf =>
      rw [if_neg hf]
      obtain ⟨_, f1, f2, f3, f4⟩ := fillAll_inv (canGroup can) inp
        hc.2 (groups s.ndev) 0 _ _ b1 hw (by rw [b2]; exact l3)
      rw [b2] at f3
      exact ⟨w0, ⟨f1, f4, fun g rep hg => (hi.store g rep hg).mono f3⟩, f3, rfl⟩
  | reset d inp =>
    rw [step] at hw ⊢
    dsimp only at hw ⊢
    obtain ⟨a1, a2, a3, a4, a5⟩ := assignAll_inv (fun r => r.grp == some d) inp hc _ 0 s.gen hi.gen hw
    refine ⟨assignAll_wrapped _ _ _ _ _ hw, ⟨a1, fun r hr => ⟨a4 (fun x hx _ => (hi.res x hx).1) r hr,
      uris_of_map _ _ a5 (fun x hx => (hi.res x hx).2) r hr⟩, ?_⟩, a3, rfl⟩
    intro g rep hg
    dsimp only at hg
    split at hg
    · cases hg
    · exact (hi.store g rep hg).mono a3
  | restart =>
    refine ⟨hw, ⟨⟨?_, ?_, hi.gen.fn⟩, fun r hr => (by cases hr), hi.store⟩, fun x h => h, rfl⟩
    · show 0 < word; unfold word; decide
    · intro x hx
      have := hi.gen.le x hx
      refine ⟨?_, this.2⟩
      show x.2.1 ≤ max 0 (if s.gen.g > s.floor then s.gen.g else s.floor)
      split <;> omega

/-- Every reading of the clock is at least the largest ETag handed out before the
last restart of the process, and changes are announced at once. -/
def AllClocked (crc : κ → Option Nat) : St κ → List (Op κ) → Prop
  | _, [] => True
  | s, o :: l => Clocked s.floor o ∧ AllClocked crc (step crc s o) l

theorem step_wrapped (crc : κ → Option Nat) (s : St κ) (o : Op κ)
    (hw : (step crc s o).gen.wrapped = false) : s.gen.wrapped = false := by
  cases o with
  | add grp uri c t =>
    rw [step] at hw
    split at hw
    · exact (getG s.gen t hw).1
    · exact hw
  | change k c t => exact assignAll_wrapped _ _ _ _ _ hw
  | notify k t => exact assignAll_wrapped _ _ _ _ _ hw
  | reset d inp => exact assignAll_wrapped _ _ _ _ _ hw
  | load fso can t v inp =>
    rw [step, load] at hw
    dsimp only at hw
    have key : (bump (s.gen.get t) (loadAll crc s.store fso (canGroup can)
          (groups s.ndev) (s.gen.get t).g s.res).1 v).wrapped = false := by
      split at hw
      · exact hw
      · exact fillAll_inv.fillWrapped _ _ _ _ _ _ hw
    have hwg : (s.gen.get t).wrapped = false := by
      simp only [bump, Bool.or_eq_false_iff] at key; exact key.1
    exact (getG s.gen t hwg).1
  | remove k => exact hw
  | modify k c => exact hw
  | dump ok => exact hw
  | clearStorage => exact hw
  | restart => exact hw

theorem run_wrapped (crc : κ → Option Nat) (l : List (Op κ)) :
    ∀ s, (run crc s l).gen.wrapped = false → s.gen.wrapped = false := by
  induction l with
  | nil => intro s h; exact h
  | cons o l ih => intro s h; exact step_wrapped crc s o (ih _ h)

theorem run_inv (crc : κ → Option Nat) (hcrc : ∀ c x, crc c = some x → x < word)
    (inj : ∀ c c' x, crc c = some x → crc c' = some x → c = c') (l : List (Op κ)) :
    ∀ s, Inv crc s → AllClocked crc s l → (run crc s l).gen.wrapped = false →
      Inv crc (run crc s l) ∧ ∀ x ∈ s.gen.own, x ∈ (run crc s l).gen.own := by
  induction l with
  | nil => intro s hi _ _; exact ⟨hi, fun x h => h⟩
  | cons o l ih =>
    intro s hi hc hw
    obtain ⟨a1, a2, a3, _⟩ := step_inv crc hcrc inj s hi o hc.1 (run_wrapped crc l _ hw)
    obtain ⟨b1, b2⟩ := ih _ a2 hc.2 hw
    exact ⟨b1, fun x hx => b2 x (a3 x hx)⟩

theorem init_inv (crc : κ → Option Nat) (n : Nat) : Inv crc (init κ n) :=
  ⟨⟨(by show 0 < word; unfold word; decide), fun x hx => (by cases hx), fun x hx => (by cases hx)⟩,
    fun r hr => (by cases hr), fun g rep h => (by cases h)⟩

end Verif.Etag
