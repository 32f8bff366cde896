import Verif.Etag.Props
import Mathlib.Data.List.Forall2
/-! What loading the stored ETags does to each single resource
(`oc_etag_load_from_storage`, api/oc_etag.c:450-505). -/
namespace Verif.Etag
open Verif.Rep (Rep b)
variable {κ : Type}

/-- Specification: the ETag stored for a resource with its current payload. -/
def Stored (crc : κ → Option Nat) (store : Group → Option Rep) (r : Res κ) : Option Nat :=
  (store r.grp).bind fun rep => readEtag crc rep r

/-- Specification: the resource after the files were read. -/
def loaded (crc : κ → Option Nat) (store : Group → Option Rep) (fso : Bool) (r : Res κ) : Res κ :=
  match Stored crc store r with
  | some e => { r with etag := e }
  | none => if fso then r else { r with etag := 0 }

theorem loadGroup_map (crc : κ → Option Nat) (grp : Group) (upd : Bool) (rep : Rep) :
    ∀ (l : List (Res κ)) (m : Nat), (loadGroup crc grp upd rep m l).2 =
      l.map fun r => match (if r.grp = grp then readEtag crc rep r else none) with
        | none => r
        | some e => if upd then { r with etag := e } else r
  | [], m => rfl
  | r :: l, m => by
    rw [loadGroup]
    split <;> rename_i h
    · simp only [List.map_cons, h, loadGroup_map crc grp upd rep l]
    · simp only [List.map_cons, h, loadGroup_map crc grp upd rep l]

theorem loadStep_map (crc : κ → Option Nat) (store : Group → Option Rep) (fso : Bool)
    (can : Group → Bool) (m : Nat) (l : List (Res κ)) (grp : Group) :
    (loadStep crc store fso can m l grp).2 =
      l.map fun r => if r.grp = grp ∧ can grp = true then loaded crc store fso r else r := by
  have hid : ∀ (l : List (Res κ)), (l.map fun r => r) = l := fun l => by simp
  unfold loadStep
  dsimp only
  cases hs : store grp with
  | none =>
    simp only
    by_cases hc : (!fso && can grp) = true
    · rw [if_pos hc, clearGroup]
      rw [Bool.and_eq_true] at hc
      apply List.map_congr_left
      intro r _
      by_cases hg : r.grp = grp
      · rw [if_pos hg, if_pos ⟨hg, hc.2⟩, loaded, Stored, hg, hs]
        cases fso <;> simp_all
      · rw [if_neg hg, if_neg (fun h => hg h.1)]
    · rw [if_neg hc]
      rw [← hid l]
      conv => rhs; rw [hid l]
      apply List.map_congr_left
      intro r _
      by_cases hg : r.grp = grp ∧ can grp = true
      · rw [if_pos hg, loaded, Stored, hg.1, hs]
        cases fso <;> simp_all
      · rw [if_neg hg]
  | some rep =>
    simp only
    rw [loadGroup_map]
    by_cases hc : (!fso && can grp) = true
    · rw [if_pos hc, clearGroup, List.map_map]
      rw [Bool.and_eq_true] at hc
      apply List.map_congr_left
      intro r _
      have hre : readEtag crc rep { r with etag := 0 } = readEtag crc rep r := rfl
      by_cases hg : r.grp = grp
      · simp only [Function.comp, hg, if_pos, hc.2, loaded, Stored, hs, Option.bind_some, and_self]
        have hre' : readEtag crc rep { r with grp := grp, etag := 0 } = readEtag crc rep r := rfl
        rw [hre']
        cases h : readEtag crc rep r <;> cases fso <;> simp_all
      · simp only [Function.comp, hg, if_neg, not_false_eq_true, false_and]
    · rw [if_neg hc]
      apply List.map_congr_left
      intro r _
      by_cases hg : r.grp = grp
      · cases hcg : can grp with
        | false =>
          simp only [hg, if_pos, Bool.false_eq_true, and_false, if_neg, not_false_eq_true]
          split <;> rfl
        | true =>
          have : fso = true := by cases fso <;> simp_all
          simp only [hg, if_pos, and_self, loaded, Stored, hs, Option.bind_some, this]
          cases readEtag crc rep r <;> rfl
      · simp only [hg, if_neg, not_false_eq_true, false_and]

theorem loaded_grp (crc : κ → Option Nat) (store : Group → Option Rep) (fso : Bool) (r : Res κ) :
    (loaded crc store fso r).grp = r.grp := by
  unfold loaded; split
  · rfl
  · split <;> rfl

/-- Reading the files, resource by resource: the resources of the devices in
normal operation (and of the platform) get the ETag stored for their payload,
nobody else changes. -/
theorem loadAll_map (crc : κ → Option Nat) (store : Group → Option Rep) (fso : Bool)
    (can : Group → Bool) : ∀ (gs : List Group) (m : Nat) (l : List (Res κ)), gs.Nodup →
    (loadAll crc store fso can gs m l).2 =
      l.map fun r => if r.grp ∈ gs ∧ can r.grp = true then loaded crc store fso r else r
  | [], m, l, _ => by simp [loadAll]
  | g :: gs, m, l, hn => by
    rw [loadAll]
    rw [List.nodup_cons] at hn
    rw [loadAll_map crc store fso can gs _ _ hn.2, loadStep_map, List.map_map]
    apply List.map_congr_left
    intro r _
    simp only [Function.comp]
    have hi : (if r.grp = g ∧ can g = true then loaded crc store fso r else r).grp = r.grp := by
      split
      · exact loaded_grp ..
      · rfl
    rw [hi]
    by_cases hg : r.grp = g ∧ can g = true
    · rw [if_neg (show ¬ (r.grp ∈ gs ∧ can r.grp = true) from fun h => hn.1 (hg.1 ▸ h.1)), if_pos hg,
        if_pos ⟨by rw [hg.1]; exact List.mem_cons_self, by rw [hg.1]; exact hg.2⟩]
    · rw [if_neg hg]
      by_cases h2 : r.grp ∈ gs ∧ can r.grp = true
      · rw [if_pos h2, if_pos ⟨List.mem_cons_of_mem _ h2.1, h2.2⟩]
      · rw [if_neg h2, if_neg]
        intro h
        rcases List.mem_cons.1 h.1 with e | e
        · exact hg ⟨e, e ▸ h.2⟩
        · exact h2 ⟨e, h.2⟩

/-- Specification of the last phase for one resource: an ETag is kept; a resource
of a group in normal operation without one gets one. -/
structure Filled (can : Group → Bool) (gs : List Group) (r r' : Res κ) : Prop where
  grp : r'.grp = r.grp
  uri : r'.uri = r.uri
  content : r'.content = r.content
  keep : r.etag ≠ 0 → r'.etag = r.etag
  other : ¬ (r.grp ∈ gs ∧ can r.grp = true) → r'.etag = r.etag
  new : r.grp ∈ gs → can r.grp = true → r'.etag ≠ 0

theorem assignAll_filled (grp : Group) (inp : Nat → Tick) :
    ∀ (l : List (Res κ)) (k : Nat) (s : G κ),
    List.Forall₂ (fun r r' : Res κ => r'.grp = r.grp ∧ r'.uri = r.uri ∧ r'.content = r.content ∧
        (r.etag ≠ 0 → r'.etag = r.etag) ∧ (r.grp ≠ grp → r'.etag = r.etag) ∧ (r.grp = grp → r'.etag ≠ 0))
      l (assignAll (fun r => r.grp == grp && r.etag == 0) inp k s l).2.2
  | [], _, _ => List.Forall₂.nil
  | r :: l, k, s => by
    rw [assignAll]
    split <;> rename_i h
    · rw [Bool.and_eq_true, beq_iff_eq, beq_iff_eq] at h
      refine List.Forall₂.cons ⟨rfl, rfl, rfl, fun h0 => absurd h.2 h0, fun h0 => absurd h.1 h0, fun _ => ?_⟩
        (assignAll_filled grp inp l _ _)
      have := get_pos s.g (inp k)
      show (s.get (inp k)).g ≠ 0
      simp only [G.get]; omega
    · refine List.Forall₂.cons ⟨rfl, rfl, rfl, fun _ => rfl, fun _ => rfl, fun hg h0 => h ?_⟩
        (assignAll_filled grp inp l _ _)
      simp [hg, h0]

theorem forall₂_comp {α : Type} {R S T : α → α → Prop} (h : ∀ a b' c, R a b' → S b' c → T a c) :
    ∀ {l l' l'' : List α}, List.Forall₂ R l l' → List.Forall₂ S l' l'' → List.Forall₂ T l l''
  | _, _, _, .nil, .nil => .nil
  | _, _, _, .cons a as, .cons c cs => .cons (h _ _ _ a c) (forall₂_comp h as cs)

theorem forall₂_refl {α : Type} {R : α → α → Prop} (h : ∀ a, R a a) : ∀ (l : List α), List.Forall₂ R l l
  | [] => .nil
  | a :: l => .cons (h a) (forall₂_refl h l)

theorem fillAll_filled (can : Group → Bool) (inp : Nat → Tick) :
    ∀ (gs : List Group) (k : Nat) (s : G κ) (l : List (Res κ)),
    List.Forall₂ (Filled can gs) l (fillAll can inp gs k s l).2
  | [], _, _, l => forall₂_refl (fun a => ⟨rfl, rfl, rfl, fun _ => rfl, fun _ => rfl, fun h => (by cases h)⟩) l
  | g :: gs, k, s, l => by
    rw [fillAll]
    by_cases hc : can g = true
    · rw [if_pos hc]
      dsimp only
      refine forall₂_comp ?_ (assignAll_filled g inp l k s) (fillAll_filled can inp gs _ _ _)
      intro a x c ⟨h1, h2, h3, h4, h5, h6⟩ hf
      refine ⟨hf.grp.trans h1, hf.uri.trans h2, hf.content.trans h3, ?_, ?_, ?_⟩
      · intro h0; have := h4 h0; rw [hf.keep (by omega), this]
      · intro hn
        have hg : a.grp ≠ g := fun e => hn ⟨by rw [e]; exact List.mem_cons_self, by rw [e]; exact hc⟩
        rw [hf.other (fun h => hn ⟨List.mem_cons_of_mem _ (h1 ▸ h.1), h1 ▸ h.2⟩), h5 hg]
      · intro hm hca
        by_cases hg : a.grp = g
        · rw [hf.keep (h6 hg)]; exact h6 hg
        · rcases List.mem_cons.1 hm with e | e
          · exact absurd e hg
          · exact hf.new (h1 ▸ e) (h1 ▸ hca)
    · rw [if_neg hc]
      refine forall₂_comp (R := fun a x => a = x) ?_ (forall₂_refl (fun _ => rfl) l)
        (fillAll_filled can inp gs k s l)
      intro a _ c rfl hf
      refine ⟨hf.grp, hf.uri, hf.content, hf.keep, ?_, ?_⟩
      · intro hn; exact hf.other (fun h => hn ⟨List.mem_cons_of_mem _ h.1, h.2⟩)
      · intro hm hca
        rcases List.mem_cons.1 hm with e | e
        · rw [e] at hca; exact absurd hca hc
        · exact hf.new e hca

theorem groups_nodup (n : Nat) : (groups n).Nodup := by
  rw [groups, List.nodup_cons]
  refine ⟨by simp, ?_⟩
  exact List.Pairwise.map some (fun a c h e => h (Option.some.inj e)) List.nodup_range

theorem mem_groups {n : Nat} {g : Group} : g ∈ groups n ↔ ∀ d, g = some d → d < n := by
  cases g with
  | none => simp [groups]
  | some d => simp [groups]

/-- Specification of `oc_etag_load_from_storage` for one resource `r` that becomes
`r'`. -/
structure LoadSpec (crc : κ → Option Nat) (store : Group → Option Rep) (fso : Bool) (can : Nat → Bool)
    (ndev : Nat) (r r' : Res κ) : Prop where
  /-- only ETags change -/
  same : r'.key = r.key ∧ r'.content = r.content
  /-- a device that is not in normal operation keeps its ETags -/
  other : ∀ d, r.grp = some d → (can d = false ∨ ndev ≤ d) → r' = r
  /-- an ETag stored for this payload is restored -/
  restored : (∀ d, r.grp = some d → can d = true ∧ d < ndev) → ∀ e, e ≠ 0 →
    Stored crc store r = some e → r'.etag = e
  /-- otherwise the old ETag is given up (unless only the storage is read) -/
  unknown : fso = true → Stored crc store r = none → r' = r
  /-- and a new one is given to the resource -/
  new : fso = false → (∀ d, r.grp = some d → can d = true ∧ d < ndev) → r'.etag ≠ 0

theorem canGroup_mem (can : Nat → Bool) (ndev : Nat) (g : Group) :
    (g ∈ groups ndev ∧ canGroup can g = true) ↔ ∀ d, g = some d → can d = true ∧ d < ndev := by
  cases g with
  | none => simp [groups, canGroup]
  | some d => simp [groups, canGroup, and_comm]

/-- C55. Loading changes each resource as specified, for every state of memory and
files. -/
theorem load_exact (crc : κ → Option Nat) (fso : Bool) (can : Nat → Bool) (t : Tick) (v : BitVec 32)
    (inp : Nat → Tick) (s : St κ) :
    List.Forall₂ (LoadSpec crc s.store fso can s.ndev) s.res (load crc fso can t v inp s).res := by
  have hmap : ∀ (f : Res κ → Res κ) (l : List (Res κ)), List.Forall₂ (fun r r' => r' = f r) l (l.map f) := by
    intro f l
    induction l with
    | nil => exact .nil
    | cons a l ih => exact .cons rfl ih
  have hno : ∀ (r : Res κ) (d : Nat), r.grp = some d → (can d = false ∨ s.ndev ≤ d) →
      ¬ (r.grp ∈ groups s.ndev ∧ canGroup can r.grp = true) := by
    intro r d hg hd h
    rw [canGroup_mem] at h
    have := h d hg
    rcases hd with hd | hd
    · rw [hd] at this; exact absurd this.1 (by decide)
    · omega
  unfold load
  dsimp only
  have hl := hmap (fun r => if r.grp ∈ groups s.ndev ∧ canGroup can r.grp = true
    then loaded crc s.store fso r else r) s.res
  rw [← loadAll_map crc s.store fso (canGroup can) (groups s.ndev) (s.gen.get t).g s.res
    (groups_nodup _)] at hl
  have hkey : ∀ r : Res κ, (loaded crc s.store fso r).key = r.key ∧
      (loaded crc s.store fso r).content = r.content := by
    intro r; unfold loaded; split
    · exact ⟨rfl, rfl⟩
    · split <;> exact ⟨rfl, rfl⟩
  by_cases hf : fso = true
  · rw [if_pos hf]
    refine forall₂_comp ?_ hl (forall₂_refl (R := fun a x => a = x) (fun _ => rfl) _)
    intro r x r' hx e
    subst e
    subst hx
    refine ⟨?_, ?_, ?_, ?_, ?_⟩
    · split
      · exact hkey r
      · exact ⟨rfl, rfl⟩
    · intro d hg hd; rw [if_neg (hno r d hg hd)]
    · intro hc e _ hs
      rw [if_pos ((canGroup_mem ..).2 hc), loaded, hs]
    · intro _ hs
      split
      · rw [loaded, hs, hf]; rfl
      · rfl
    · intro h; rw [hf] at h; cases h
  · rw [if_neg hf]
    refine forall₂_comp ?_ hl (fillAll_filled (canGroup can) inp (groups s.ndev) 0 _ _)
    intro r x r' hx hfl
    have hk : x.key = r.key ∧ x.content = r.content := by
      rw [hx]; split
      · exact hkey r
      · exact ⟨rfl, rfl⟩
    have hgx : x.grp = r.grp := (Prod.mk.inj hk.1).1
    refine ⟨⟨?_, hfl.content.trans hk.2⟩, ?_, ?_, ?_, ?_⟩
    · rw [← hk.1, Res.key, Res.key, hfl.grp, hfl.uri]
    · intro d hg hd
      have hn := hno r d hg hd
      rw [if_neg hn] at hx
      subst hx
      have := hfl.other hn
      have h1 := hfl.grp; have h2 := hfl.uri; have h3 := hfl.content
      cases r'; cases x
      simp only at *
      subst h1 h2 h3 this
      rfl
    · intro hc e he hs
      rw [if_pos ((canGroup_mem ..).2 hc), loaded, hs] at hx
      have : x.etag = e := by rw [hx]
      rw [hfl.keep (by omega), this]
    · intro h; exact absurd h hf
    · intro _ hc
      have := (canGroup_mem ..).2 hc
      exact hfl.new (by rw [hgx]; exact this.1) (by rw [hgx]; exact this.2)

/-- Two devices, the second is being provisioned: `/a` of the first gets its stored
ETag back, `/b` (changed) a new one, the other device's resource keeps its own. -/
example :
    let s : St Nat := { (init Nat 2) with
      res := [⟨some 0, b "/a", 7, 3⟩, ⟨some 0, b "/b", 9, 4⟩, ⟨some 1, b "/a", 11, 5⟩],
      store := fun g => if g = some 0 then
          some [(b "/a", .obj [(b "etag", .int 117), (b "crc", .int 3)]),
                (b "/b", .obj [(b "etag", .int 118), (b "crc", .int 8)])]
        else none }
    (load some false (fun d => d == 0) (100, 0#32) 0#32 (fun _ => (100, 0#32)) s).res.map
        (fun r => (r.etag, r.content)) = [(117, 3), (119, 4), (11, 5)] ∧
    Stored some s.store ⟨some 0, b "/a", 7, 3⟩ = some 117 := by decide +kernel

end Verif.Etag
