import Verif.Cred.Lemmas
import Verif.Acl.Model

/-!
Properties of the credential store: C37 (unique ids) and C54 (who may change it).
-/

namespace Verif.Cred

open Verif.Rep (Bytes b Val Rep)
open Verif.Acl (Dos Id nilId)
open Verif.Sec (strToUuid toInt32)

/-! ## Adding a credential -/

/-- `append` either keeps the list or appends one new credential, as requested,
under an id nobody has. -/
theorem append_ok {l : List Cred} {q : Req} {o : Orc} {u : Id} {kp : Option Bytes} {uid : Nat}
    {rep : Option Cred} {a : Added} (h : append l q o u kp uid rep = .ok a) (hq : q.id ∉ l.map (·.id)) :
    (a.created = false ∧ a.ret = -1 ∧ a.creds = l) ∨
    (∃ c, a.created = true ∧ a.creds = l ++ [c] ∧ a.ret = c.id ∧ c.id ∉ l.map (·.id) ∧ c.id ≠ -1 ∧
      Made q o false u kp uid c ∧ a.replaced = rep) := by
  rw [append] at h
  split at h
  · cases h; exact .inl ⟨rfl, rfl, rfl⟩
  · obtain ⟨r, hr, h⟩ := bind_ok h
    split at h
    · cases h; exact .inl ⟨rfl, rfl, rfl⟩
    · rename_i c
      cases h
      obtain ⟨h1, h2, h3⟩ := create_ok hr hq
      exact .inr ⟨c, rfl, rfl, rfl, h1, h2, h3, rfl⟩

theorem id_notin {l : List Cred} {i : Int} (h : getById l i = none) : i ∉ l.map (·.id) := by
  intro m
  obtain ⟨c, hc, e⟩ := List.mem_map.mp m
  exact getById_none h c hc e

/-- The common part of the three ways through `addScan`. -/
structure AddSpec (l : List Cred) (q : Req) (o : Orc) (u : Id) (kp : Option Bytes) (uid : Nat) (a : Added) :
    Prop where
  /-- the credentials of other ids stay what they are -/
  others : ∀ j ≠ q.id, (a.created = true → j ≠ a.ret) → getById a.creds j = getById l j
  /-- a created credential is the one requested, found under the id returned -/
  made : a.created = true → ∃ c l', a.creds = l' ++ [c] ∧ List.Sublist l' l ∧ a.ret = c.id ∧
    c.id ∉ l'.map (·.id) ∧ c.id ≠ -1 ∧ Made q o false u kp uid c
  /-- nothing else is added -/
  kept : a.created = false → List.Sublist a.creds l

theorem addScan_spec {l l0 : List Cred} {q : Req} {o : Orc} {u : Id} {kp : Option Bytes} {uid : Nat} {keep : Bool}
    {rep : Option Cred} {a : Added} (h : addScan l q o u kp uid keep rep = .ok a)
    (hs : List.Sublist l l0) (ho : ∀ j ≠ q.id, getById l j = getById l0 j) (hn : getById l q.id = none) :
    AddSpec l0 q o u kp uid a := by
  rw [addScan] at h
  split at h
  · cases h
    exact ⟨fun j hj _ => ho j hj, fun e => (by cases e), fun _ => hs⟩
  · rename_i c l' hsc
    obtain ⟨h1, h2, h3, h4⟩ := scan_gone hsc
    exact absurd h3 (getById_none hn c h2)
  · rcases append_ok h (id_notin hn) with ⟨h1, h2, h3⟩ | ⟨c, h1, h2, h3, h4, h5, h6, h7⟩
    · refine ⟨fun j hj _ => ?_, fun e => (by rw [h1] at e; cases e), fun _ => h3 ▸ hs⟩
      rw [h3]; exact ho j hj
    · refine ⟨fun j hj hc => ?_, fun _ => ⟨c, l, h2, hs, h3, h4, h5, h6⟩, fun e => (by rw [h1] at e; cases e)⟩
      rw [h2, getById_append, if_neg (by rw [← h3]; exact fun e => hc h1 e.symm)]
      rw [ho j hj]
      cases getById l0 j <;> rfl

theorem addDev_spec {l : List Cred} {q : Req} {o : Orc} {u : Id} {kp : Option Bytes} {uid : Nat} {keep : Bool}
    {a : Added} (hl : Uniq l) (h : addDev l q o u kp uid keep = .ok a) : AddSpec l q o u kp uid a := by
  rw [addDev] at h
  split at h
  · split at h
    · cases h
      exact ⟨fun _ _ _ => rfl, fun e => (by cases e), fun _ => List.Sublist.refl _⟩
    · exact addScan_spec h (eraseId_sub _ _) (fun j hj => getById_eraseId_ne hj) (getById_eraseId hl)
  · rename_i hn
    exact addScan_spec h (List.Sublist.refl _) (fun _ _ => rfl) hn

/-- C37: adding a credential keeps the ids unique. -/
theorem addDev_uniq {l : List Cred} {q : Req} {o : Orc} {u : Id} {kp : Option Bytes} {uid : Nat} {keep : Bool}
    {a : Added} (hl : Uniq l) (h : addDev l q o u kp uid keep = .ok a) : Uniq a.creds := by
  have hs := addDev_spec hl h
  cases hc : a.created with
  | false => exact hl.sub (hs.kept hc)
  | true =>
    obtain ⟨c, l', e, h1, h2, h3, h4, _⟩ := hs.made hc
    rw [e]
    exact uniq_append (hl.sub h1) h3 h4

/-- C37: a credential that was added is found under the id returned — the
requested one if one was requested — with the type, usage, subject, data, tag and
role of the request. -/
theorem addDev_lookup {l : List Cred} {q : Req} {o : Orc} {u : Id} {kp : Option Bytes} {uid : Nat} {keep : Bool}
    {a : Added} (hl : Uniq l) (h : addDev l q o u kp uid keep = .ok a) (hc : a.created = true) :
    ∃ c, getById a.creds a.ret = some c ∧ Made q o false u kp uid c ∧ a.ret ≠ -1 := by
  obtain ⟨c, l', e, h1, h2, h3, h4, h5⟩ := (addDev_spec hl h).made hc
  refine ⟨c, ?_, h5, by rw [h2]; exact h4⟩
  rw [getById_iff (addDev_uniq hl h), e, h2]
  exact ⟨by simp, rfl⟩

/-- C37: adding a credential, whatever comes of it, does not touch the
credentials of other ids. -/
theorem addDev_others {l : List Cred} {q : Req} {o : Orc} {u : Id} {kp : Option Bytes} {uid : Nat} {keep : Bool}
    {a : Added} (hl : Uniq l) (h : addDev l q o u kp uid keep = .ok a) (j : Int) (hj : j ≠ q.id)
    (hr : j ≠ a.ret) : getById a.creds j = getById l j :=
  (addDev_spec hl h).others j hj fun _ => hr

/-- C37: an id that is returned although nothing was created belongs to a
credential of the same subject, type, usage, public data and tag. -/
theorem addDev_existing {l : List Cred} {q : Req} {o : Orc} {u : Id} {kp : Option Bytes} {uid : Nat} {keep : Bool}
    {a : Added} (hl : Uniq l) (h : addDev l q o u kp uid keep = .ok a) (hc : a.created = false)
    (hr : a.ret ≠ -1) :
    ∃ c, getById a.creds a.ret = some c ∧ c.subject = u ∧ c.typ = q.typ ∧ c.usage = q.usage ∧
      eqData c.pub q.pub = true ∧ c.tag = q.tag.getD [] := by
  have key : ∀ (l1 : List Cred) (rep : Option Cred), Uniq l1 →
      addScan l1 q o u kp uid keep rep = .ok a → getById l1 q.id = none →
      ∃ c, getById a.creds a.ret = some c ∧ c.subject = u ∧ c.typ = q.typ ∧ c.usage = q.usage ∧
        eqData c.pub q.pub = true ∧ c.tag = q.tag.getD [] := by
    intro l1 rep hu h hn
    rw [addScan] at h
    split at h
    · rename_i i hs
      cases h
      obtain ⟨c, h1, h2, h3, h4, h5, h6, h7⟩ := scan_same hs
      refine ⟨c, (getById_iff hu).mpr ⟨h1, h2⟩, h3, h4, ?_⟩
      simp only [matchPublic, Bool.and_eq_true, beq_iff_eq] at h6
      exact ⟨h6.1.1.1, h6.1.2, h6.2⟩
    · rename_i c l' hsc
      obtain ⟨h1, h2, h3, h4⟩ := scan_gone hsc
      exact absurd h3 (getById_none hn c h2)
    · rcases append_ok h (id_notin hn) with ⟨h1, h2, h3⟩ | ⟨c, h1, _⟩
      · exact absurd h2 hr
      · rw [h1] at hc; cases hc
  rw [addDev] at h
  split at h
  · rename_i c hg
    split at h
    · rename_i hd
      cases h
      simp only [isDuplicate, Bool.and_eq_true, beq_iff_eq] at hd
      exact ⟨c, hg, hd.1.1.1.1.2, hd.1.1.1.1.1, hd.1.2, hd.2, hd.1.1.2⟩
    · exact key _ _ (hl.sub (eraseId_sub _ _)) h (getById_eraseId hl)
  · rename_i hn
    exact key _ _ hl h hn

/-- The assertion at oc_cred.c:721 never fails, and the function ends if one of
the random numbers drawn is unused. -/
theorem append_defined {l : List Cred} {q : Req} {o : Orc} {u : Id} {kp : Option Bytes} {uid : Nat}
    {rep : Option Cred} (hp : ∃ p, newPrivate q kp = .ok p)
    (hr : q.id = -1 → ∃ i, newId (l.map (·.id) ++ [0]) o.rnd = some i) :
    ∃ a, append l q o u kp uid rep = .ok a := by
  have : ∃ r, create (l.map (·.id)) q o false u kp uid = .ok r := by
    rw [create]
    split
    · exact ⟨_, rfl⟩
    · obtain ⟨p, hp⟩ := hp
      have : ∃ i, chooseId (l.map (·.id)) q o = .ok i := by
        rw [chooseId]; split
        · rename_i e
          obtain ⟨i, hi⟩ := hr e
          rw [hi]; exact ⟨_, rfl⟩
        · exact ⟨_, rfl⟩
      obtain ⟨i, hi⟩ := this
      rw [hi, hp, Out.bind, Out.bind]
      split <;> exact ⟨_, rfl⟩
  obtain ⟨r, hr⟩ := this
  rw [append]
  split
  · exact ⟨_, rfl⟩
  · rw [hr, Out.bind]
    split <;> exact ⟨_, rfl⟩

/-- C37: with unique ids the addition is always defined (if the private data can
be read and an unused random number is drawn). -/
theorem addDev_defined {l : List Cred} {q : Req} {o : Orc} {u : Id} {kp : Option Bytes} {uid : Nat} {keep : Bool}
    (hl : Uniq l) (hp : ∃ p, newPrivate q kp = .ok p)
    (hr : q.id = -1 → ∃ i, newId (l.map (·.id) ++ [0]) o.rnd = some i) :
    ∃ a, addDev l q o u kp uid keep = .ok a := by
  have key : ∀ (l1 : List Cred) (rep : Option Cred), getById l1 q.id = none →
      (q.id = -1 → ∃ i, newId (l1.map (·.id) ++ [0]) o.rnd = some i) →
      ∃ a, addScan l1 q o u kp uid keep rep = .ok a := by
    intro l1 rep hn hr
    rw [addScan]
    split
    · exact ⟨_, rfl⟩
    · rename_i c l' hsc
      obtain ⟨h1, h2, h3, h4⟩ := scan_gone hsc
      exact absurd h3 (getById_none hn c h2)
    · exact append_defined hp hr
  rw [addDev]
  split
  · rename_i c hg
    split
    · exact ⟨_, rfl⟩
    · refine key _ _ (getById_eraseId hl) fun e => ?_
      obtain ⟨h1, h2⟩ := getById_mem hg
      exact absurd (h2.trans e) (hl.valid c h1)
  · rename_i hn
    exact key _ _ hn hr

end Verif.Cred
