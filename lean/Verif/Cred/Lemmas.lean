import Verif.Cred.Model
import Verif.Sec.Lemmas

/-! Lemmas about the model of the credential store. -/

namespace Verif.Cred

open Verif.Rep (Bytes b Val Rep)
open Verif.Acl (Dos Id nilId)
open Verif.Sec (strToUuid toInt32)

theorem bind_ok {α β : Type} {x : Out α} {f : α → Out β} {y : β} (h : x.bind f = .ok y) :
    ∃ a, x = .ok a ∧ f a = .ok y := by
  cases x with
  | ok a => exact ⟨a, rfl, h⟩
  | ub => cases h

/-- No two credentials of the list have the same id, and none has the id −1. -/
structure Uniq (l : List Cred) : Prop where
  nodup : (l.map (·.id)).Nodup
  valid : ∀ c ∈ l, c.id ≠ -1

theorem uniq_nil : Uniq [] := ⟨List.nodup_nil, by simp⟩

theorem Uniq.sub {l l' : List Cred} (h : Uniq l) (s : List.Sublist l' l) : Uniq l' :=
  ⟨(s.map (·.id)).nodup h.nodup, fun c hc => h.valid c (s.subset hc)⟩

theorem eraseId_sub (i : Int) (l : List Cred) : List.Sublist (eraseId i l) l := by
  induction l with
  | nil => exact List.Sublist.refl _
  | cons c l ih =>
    rw [eraseId]; split
    · exact List.sublist_cons_self c l
    · exact ih.cons_cons c

theorem eraseSubject_sub (u : Id) (l : List Cred) : List.Sublist (eraseSubject u l) l := by
  induction l with
  | nil => exact List.Sublist.refl _
  | cons c l ih =>
    rw [eraseSubject]; split
    · exact List.sublist_cons_self c l
    · exact ih.cons_cons c

theorem clear_sub (f : Cred → Bool) (l : List Cred) : List.Sublist (clear f l) l :=
  List.filter_sublist

theorem getById_mem {l : List Cred} {i : Int} {c : Cred} (h : getById l i = some c) : c ∈ l ∧ c.id = i := by
  have h1 := List.mem_of_find?_eq_some h
  have h2 := List.find?_some h
  exact ⟨h1, by simpa using h2⟩

theorem getById_none {l : List Cred} {i : Int} (h : getById l i = none) : ∀ c ∈ l, c.id ≠ i := by
  intro c hc e
  have := List.find?_eq_none.mp h c hc
  simp [e] at this

theorem getById_none_of {l : List Cred} {i : Int} (h : ∀ c ∈ l, c.id ≠ i) : getById l i = none := by
  apply List.find?_eq_none.mpr
  intro c hc
  simp [h c hc]

/-- With unique ids the lookup finds exactly the credentials of the list. -/
theorem getById_iff {l : List Cred} (h : Uniq l) {c : Cred} {i : Int} :
    getById l i = some c ↔ c ∈ l ∧ c.id = i := by
  constructor
  · exact getById_mem
  · rintro ⟨hc, rfl⟩
    have hn := h.nodup
    clear h
    induction l with
    | nil => cases hc
    | cons d l ih =>
      rw [getById, List.find?_cons]
      rw [List.map_cons, List.nodup_cons] at hn
      cases List.mem_cons.mp hc with
      | inl e => subst e; simp
      | inr m =>
        have : d.id ≠ c.id := fun e => hn.1 (e ▸ List.mem_map_of_mem m)
        rw [beq_false_of_ne this]
        exact ih m hn.2

theorem getById_cons (c : Cred) (l : List Cred) (i : Int) :
    getById (c :: l) i = if c.id = i then some c else getById l i := by
  rw [getById, List.find?_cons]
  by_cases h : c.id = i
  · simp [h]
  · rw [beq_false_of_ne h, if_neg h]; rfl

theorem getById_append (l : List Cred) (c : Cred) (i : Int) :
    getById (l ++ [c]) i = (getById l i).or (if c.id = i then some c else none) := by
  rw [getById, List.find?_append]
  congr 1
  by_cases h : c.id = i <;> simp [h]

theorem getById_eraseId_ne {l : List Cred} {i j : Int} (h : j ≠ i) :
    getById (eraseId i l) j = getById l j := by
  induction l with
  | nil => rfl
  | cons c l ih =>
    rw [eraseId]; split
    · rename_i e
      rw [getById_cons, if_neg (by omega)]
    · rw [getById_cons, getById_cons, ih]

theorem getById_eraseId {l : List Cred} {i : Int} (h : Uniq l) : getById (eraseId i l) i = none := by
  induction l with
  | nil => rfl
  | cons c l ih =>
    have hn := h.nodup
    rw [List.map_cons, List.nodup_cons] at hn
    rw [eraseId]; split
    · rename_i e
      apply getById_none_of
      intro d hd e'
      exact hn.1 (by rw [e, ← e']; exact List.mem_map_of_mem hd)
    · rename_i e
      rw [getById_cons, if_neg e]
      exact ih (h.sub (List.sublist_cons_self c l))

theorem scan_gone {q : Req} {u : Id} {l l' : List Cred} {c : Cred} (h : scan q u l = .gone c l') :
    List.Sublist l' l ∧ c ∈ l ∧ c.id = q.id ∧ ∀ j ≠ q.id, getById l' j = getById l j := by
  induction l generalizing l' with
  | nil => cases h
  | cons d l ih =>
    rw [scan] at h
    split at h
    · rename_i e
      cases h
      refine ⟨List.sublist_cons_self _ _, List.mem_cons_self, e.2.2, fun j hj => ?_⟩
      rw [getById_cons, if_neg (by rw [e.2.2]; exact fun e => hj e.symm)]
    · split at h
      · cases h
      · split at h
        · cases h
        · rename_i e
          cases h
          obtain ⟨h1, h2, h3, h4⟩ := ih e
          refine ⟨h1.cons_cons d, List.mem_cons_of_mem _ h2, h3, fun j hj => ?_⟩
          rw [getById_cons, getById_cons, h4 j hj]
        · cases h

theorem scan_same {q : Req} {u : Id} {l : List Cred} {i : Int} (h : scan q u l = .same i) :
    ∃ c ∈ l, c.id = i ∧ c.subject = u ∧ c.typ = q.typ ∧ q.typ = certType ∧ matchPublic c q = true ∧ i ≠ q.id := by
  induction l with
  | nil => cases h
  | cons d l ih =>
    rw [scan] at h
    split at h
    · cases h
    · rename_i n
      split at h
      · rename_i e
        cases h
        exact ⟨d, List.mem_cons_self, rfl, e.1, e.2.1, e.2.2.1, e.2.2.2, fun hh => n ⟨e.1, e.2.1, hh⟩⟩
      · split at h
        · rename_i e
          cases h
          obtain ⟨c, h1, h2⟩ := ih e
          exact ⟨c, List.mem_cons_of_mem _ h1, h2⟩
        · cases h
        · cases h

theorem newId_fresh {used : List Int} {rs : List (BitVec 32)} {i : Int} (h : newId used rs = some i) :
    i ∉ used ∧ 0 ≤ i ∧ i < 2 ^ 31 := by
  induction rs with
  | nil => cases h
  | cons r rs ih =>
    rw [newId] at h
    split at h
    · exact ih h
    · rename_i n
      cases h
      refine ⟨n, Int.natCast_nonneg _, ?_⟩
      have : (r >>> 1).toNat < 2 ^ 31 := by
        rw [BitVec.toNat_ushiftRight, Nat.shiftRight_eq_div_pow]
        have := r.isLt
        omega
      exact_mod_cast this

theorem chooseId_ok {ids : List Int} {q : Req} {o : Orc} {i : Int} (h : chooseId ids q o = .ok i)
    (hq : q.id ∉ ids) : i ∉ ids ∧ i ≠ -1 ∧ (q.id ≠ -1 → i = q.id) := by
  rw [chooseId] at h
  split at h
  · rename_i e
    split at h
    · cases h
    · rename_i k
      cases h
      obtain ⟨h1, h2, _⟩ := newId_fresh k
      exact ⟨fun m => h1 (List.mem_append_left _ m), by omega, fun n => absurd e n⟩
  · rename_i n
    cases h
    exact ⟨hq, n, fun _ => rfl⟩

/-- What a credential created for a request looks like. -/
structure Made (q : Req) (o : Orc) (roles : Bool) (subject : Id) (kp : Option Bytes) (uid : Nat) (c : Cred) :
    Prop where
  id : q.id ≠ -1 → c.id = q.id
  uid : c.uid = uid
  typ : c.typ = q.typ
  usage : c.usage = if roles then 0 else q.usage
  subject : c.subject = if roles then nilId else subject
  priv : newPrivate q kp = .ok (some c.priv)
  pub : c.pub = if q.pub.bytes = [] then {} else q.pub
  tag : c.tag = q.tag.getD []
  role : ∃ r, parseRole q o roles = some r ∧ (roles = true → c.role = r.1 ∧ c.authority = r.2)
  devRole : roles = false → q.role ≠ none → q.role = some c.role

theorem create_ok {ids : List Int} {q : Req} {o : Orc} {roles : Bool} {u : Id} {kp : Option Bytes} {uid : Nat}
    {c : Cred} (h : create ids q o roles u kp uid = .ok (some c)) (hq : q.id ∉ ids) :
    c.id ∉ ids ∧ c.id ≠ -1 ∧ Made q o roles u kp uid c := by
  rw [create] at h
  split at h
  · cases h
  · rename_i r hr
    obtain ⟨i, hi, h⟩ := bind_ok h
    obtain ⟨p, hp, h⟩ := bind_ok h
    split at h
    · cases h
    · rename_i p
      cases h
      obtain ⟨h1, h2, h3⟩ := chooseId_ok hi hq
      refine ⟨h1, h2, h3, rfl, rfl, rfl, rfl, hp, ?_, rfl, ⟨r, hr, ?_⟩, ?_⟩
      · by_cases e : q.pub.bytes = [] <;> simp [e]
      · intro e; simp [e]
      · intro e hn
        cases hr : q.role with
        | none => exact absurd hr hn
        | some x => simp [e]

theorem uniq_append {l : List Cred} {c : Cred} (h : Uniq l) (h1 : c.id ∉ l.map (·.id)) (h2 : c.id ≠ -1) :
    Uniq (l ++ [c]) := by
  refine ⟨?_, ?_⟩
  · rw [List.map_append, List.nodup_append]
    refine ⟨h.nodup, by simp, ?_⟩
    intro a ha b' hb e
    simp only [List.map_cons, List.map_nil, List.mem_singleton] at hb
    exact h1 (by rw [← hb, ← e]; exact ha)
  · intro d hd
    rcases List.mem_append.mp hd with hd | hd
    · exact h.valid d hd
    · rw [List.mem_singleton.mp hd]; exact h2

end Verif.Cred
