import Verif.Pstat.Model
import Verif.Doxm.Props

/-!
Helper lemmas for Pstat.Props: what decoding a payload preserves, and what the
state machine does.
-/

namespace Verif.Pstat

open Verif.Rep (Bytes b Val Rep)
open Verif.Acl (Dos Id nilId)
open Verif.Doxm (Doxm)

theorem toInt32_idem (i : Int) : Sec.toInt32 (Sec.toInt32 i) = Sec.toInt32 i := by
  rw [Sec.toInt32, Sec.toInt32, BitVec.ofInt_toInt]

/-- The fields of the status are values of their C types. -/
structure WF (ps : Pstat) : Prop where
  len : ps.rowner.length = 16
  om : Sec.toInt32 ps.om = ps.om
  sm : Sec.toInt32 ps.sm = ps.sm

/-- What decoding a request keeps. -/
structure Kept (x y : Dec) : Prop where
  isop : y.ps.isop = x.ps.isop
  rip : y.ps.rip = x.ps.rip
  p : y.ps.p = x.ps.p
  cm : y.ps.cm = x.ps.cm
  sm : y.ps.sm = x.ps.sm
  trans : y.trans = false → x.trans = false ∧ y.ps.s = x.ps.s ∧
    (x.ps.s = some .rfpro ∨ x.ps.s = some .rfnop → y.ps.rowner = x.ps.rowner)
  wf : WF x.ps → WF y.ps

theorem Kept.refl (x : Dec) : Kept x x := ⟨rfl, rfl, rfl, rfl, rfl, fun h => ⟨h, rfl, fun _ => rfl⟩, id⟩

theorem Kept.trans' {x y z : Dec} (h1 : Kept x y) (h2 : Kept y z) : Kept x z where
  isop := h2.isop.trans h1.isop
  rip := h2.rip.trans h1.rip
  p := h2.p.trans h1.p
  cm := h2.cm.trans h1.cm
  sm := h2.sm.trans h1.sm
  trans := fun h => by
    obtain ⟨a, e, f⟩ := h2.trans h
    obtain ⟨a', e', f'⟩ := h1.trans a
    exact ⟨a', e.trans e', fun hs => (f (by rw [e']; exact hs)).trans (f' hs)⟩
  wf := fun h => h2.wf (h1.wf h)

theorem decodeDos_trans (fs : Bool) (r : Rep) (x y : Option Dos × Bool) (h : decodeDos fs r x = some y) :
    y.2 = false → x.2 = false ∧ y.1 = x.1 := by
  induction r generalizing x with
  | nil => cases h; exact fun h => ⟨h, rfl⟩
  | cons p r ih =>
    obtain ⟨k, v⟩ := p
    unfold decodeDos at h
    split at h
    · split at h
      · intro hy
        have := ih _ h hy
        simp at this
      · cases h
    · split at h
      · cases h
      · exact ih _ h

theorem decodeProp_kept (k : Bytes) (v : Val) (x y : Dec) (h : decodeProp false k v x = .ok (some y)) : Kept x y := by
  unfold decodeProp at h
  cases v with
  | obj o =>
    dsimp only at h
    split at h
    · cases hd : decodeDos false o (x.ps.s, x.trans) with
      | none => rw [hd] at h; simp at h
      | some z =>
        rw [hd] at h
        simp only [Option.map_some, Out.ok.injEq, Option.some.injEq] at h
        subst h
        have := decodeDos_trans false o _ z hd
        exact ⟨rfl, rfl, rfl, rfl, rfl, fun hz => ⟨(this hz).1, (this hz).2, fun _ => rfl⟩, fun hw => ⟨hw.len, hw.om, hw.sm⟩⟩
    · simp at h
  | bool v => simp at h
  | int i =>
    dsimp only at h
    unfold decodeInt at h
    split at h
    · cases h
    · simp only [Bool.false_eq_true, false_and, if_false] at h
      split at h
      · simp only [Out.ok.injEq, Option.some.injEq] at h
        subst h
        exact ⟨rfl, rfl, rfl, rfl, rfl, fun h => ⟨h, rfl, fun _ => rfl⟩, fun hw => ⟨hw.len, hw.om, hw.sm⟩⟩
      · split at h
        · simp only [Out.ok.injEq, Option.some.injEq] at h
          subst h
          exact ⟨rfl, rfl, rfl, rfl, rfl, fun h => ⟨h, rfl, fun _ => rfl⟩, fun hw => ⟨hw.len, toInt32_idem i, hw.sm⟩⟩
        · simp at h
  | str s =>
    dsimp only at h
    split at h
    · rename_i hc
      cases hu : Sec.strToUuid x.ps.rowner s with
      | ub => rw [hu] at h; cases h
      | ok u =>
        rw [hu, Out.bind] at h
        simp only [Out.ok.injEq, Option.some.injEq] at h
        subst h
        refine ⟨rfl, rfl, rfl, rfl, rfl, fun h => ⟨h, rfl, fun hs => ?_⟩,
          fun hw => ⟨Sec.strToUuid_length _ _ _ hw.len hu, hw.om, hw.sm⟩⟩
        rcases hc.1 with hc | hc
        · cases hc
        · exact absurd hs (by simp [hc.1, hc.2])
    · simp at h
  | _ =>
    dsimp only at h
    split at h
    · simp only [Out.ok.injEq, Option.some.injEq] at h
      subst h
      exact Kept.refl _
    · simp at h

theorem collect_kept (r : Rep) (x y : Dec) (h : collect false r x = .ok (some y)) : Kept x y := by
  induction r generalizing x with
  | nil => simp only [collect, Out.ok.injEq, Option.some.injEq] at h; subst h; exact Kept.refl _
  | cons p r ih =>
    obtain ⟨k, v⟩ := p
    unfold collect at h
    cases hd : decodeProp false k v x with
    | ub => rw [hd] at h; cases h
    | ok z =>
      rw [hd, Out.bind] at h
      cases z with
      | none => simp at h
      | some z => exact (decodeProp_kept k v x z hd).trans' (ih z h)

/-- The specification of a provisioned device: it is owned, its owner and its
identifier are set, and each of its four security resources has an owner for which
there is a credential. -/
structure Provisioned (ps : Pstat) (d : Dev) : Prop where
  owned : d.doxm.owned = true
  devowner : d.doxm.devowner ≠ nilId
  device : d.doxm.device ≠ nilId
  owners : ∀ id ∈ [ps.rowner, d.doxm.rowner, d.aclOwner, d.credOwner], id ≠ nilId ∧ id ∈ d.creds

theorem ownerOk_iff (d : Dev) (id : Id) : ownerOk d id = true ↔ id ≠ nilId ∧ id ∈ d.creds := by
  simp [ownerOk]

theorem checkState_iff (ps : Pstat) (d : Dev) : checkState ps d = true ↔ checkPs ps = true ∧ Provisioned ps d := by
  simp only [checkState, Bool.and_eq_true, ownerOk_iff, bne_iff_ne]
  constructor
  · intro ⟨⟨⟨⟨⟨⟨⟨h1, h2⟩, h3⟩, h4⟩, h5⟩, h6⟩, h7⟩, h8⟩
    refine ⟨h1, h3, h4, h5, ?_⟩
    intro id hid
    simp only [List.mem_cons, List.not_mem_nil, or_false] at hid
    rcases hid with rfl | rfl | rfl | rfl <;> assumption
  · intro ⟨h1, h3, h4, h5, h⟩
    simp only [List.mem_cons, List.not_mem_nil, or_false, forall_eq_or_imp, forall_eq] at h
    exact ⟨⟨⟨⟨⟨⟨⟨h1, h.1⟩, h3⟩, h4⟩, h5⟩, h.2.1⟩, h.2.2.1⟩, h.2.2.2⟩

/-- The mode of each of the states, as `handleState` sets it. -/
theorem enter_eq (ps : Pstat) (d : Dev) (hp : checkPs ps = true) :
    (Provisioned ps d ∧ enter ps d = (true, { d with ps := { ps with p := false } })) ∨
    (¬ Provisioned ps d ∧ enter ps d = (false, d)) := by
  by_cases h : Provisioned ps d
  · exact .inl ⟨h, by rw [enter, if_pos ((checkState_iff _ _).2 ⟨hp, h⟩)]⟩
  · exact .inr ⟨h, by rw [enter, if_neg (fun hc => h ((checkState_iff _ _).1 hc).2)]⟩

end Verif.Pstat
