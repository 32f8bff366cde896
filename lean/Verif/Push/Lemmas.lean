import Verif.Push.Spec

/-! Helper lemmas. -/

namespace Verif.Push

open Verif.Rep (b Bytes Val Rep)
open Verif.Ri (slash Iface ifaceTable)
open Spec

/-! ### One selector -/

theorem name_head : ∀ i : Iface, ∃ c r, i.name = c :: r ∧ 100 ≤ c.toNat ∧ c.toNat < 128 ∧ r.length < 50 := by
  intro i
  cases i <;> exact ⟨_, _, rfl, by decide, by decide, by decide⟩

theorem maskOf_first (t : Bytes) : maskOf t (firstByte t) = 0 := by
  unfold maskOf
  rw [List.find?_eq_none.mpr]
  intro i _ hc
  obtain ⟨c, r, hn, h1, h2, h3⟩ := name_head i
  simp only [Bool.and_eq_true, beq_iff_eq, List.isPrefixOf_iff_prefix, hn, List.length_cons] at hc
  obtain ⟨hl, hp⟩ := hc
  obtain ⟨rest, hr⟩ := hp
  subst hr
  simp only [firstByte, List.cons_append, h2, if_true] at hl
  omega

theorem pifMask_zero (l : List Bytes) : pifMask l = 0 := by
  unfold pifMask
  suffices h : ∀ m : BitVec 32, l.foldl (fun m i => m ||| maskOf i (firstByte i)) m = m from h 0
  induction l with
  | nil => intro m; rfl
  | cons a l ih =>
    intro m
    rw [List.foldl_cons, maskOf_first, ih]
    simp

theorem anyIn_iff (t s : List Bytes) : anyIn t s = true ↔ ∃ x, x ∈ t ∧ x ∈ s := by
  unfold anyIn
  split
  · rename_i h
    constructor
    · intro h; cases h
    · rintro ⟨x, h1, h2⟩
      rcases h with h | h <;> subst h
      · cases h1
      · cases h2
  · simp only [List.any_eq_true, beq_iff_eq]
    constructor
    · rintro ⟨x, hx, y, hy, rfl⟩
      exact ⟨x, hy, hx⟩
    · rintro ⟨x, h1, h2⟩
      exact ⟨x, h2, x, h1, rfl⟩

theorem allMatched_iff (n : Ns) (r : Rsc) (uri : Bytes) :
    allMatched n r uri ≠ 0 ↔ n.pif = [] ∧ SelectsBy n.phref n.prt r uri := by
  unfold allMatched SelectsBy
  have hz : pifMask n.pif &&& r.ifaces = 0 := by rw [pifMask_zero]; simp
  have ha := anyIn_iff n.prt r.types
  rcases hpif : n.pif with _ | ⟨i, l⟩
  · rcases hprt : n.prt with _ | ⟨t, l⟩
    · rcases hph : n.phref with _ | p
      · simp
      · by_cases hp : p = uri <;> simp [hp]
    · rw [hprt] at ha
      by_cases he : anyIn (t :: l) r.types = true
      · have h2 := ha.mp he
        rcases hph : n.phref with _ | p
        · simp [he]; simpa using h2
        · by_cases hp : p = uri
          · simp [he, hp]; simpa using h2
          · simp [he, hp]
      · have h2 : ¬ ∃ x, x ∈ t :: l ∧ x ∈ r.types := fun h => he (ha.mpr h)
        have h3 : anyIn (t :: l) r.types = false := by simpa using he
        simp only [h3]
        constructor
        · intro h; simp at h
        · rintro ⟨_, _, h, _⟩
          exact absurd (h (by simp)) h2
  · rw [hpif] at hz
    simp [hz]

/-- The selectors that a change pushes for. -/
def Hit (r : Rsc) (uri : Bytes) (dev : Nat) (n : Ns) : Prop :=
  n.dev = dev ∧ n.state = .wfu ∧ n.pif = [] ∧ SelectsBy n.phref n.prt r uri

open Classical in
theorem loop_eq (r : Rsc) (uri : Bytes) (dev : Nat) (ok : Nat → Bool) (l : List Ns) :
    loop r uri dev true ok l =
      (l.map fun n => if Hit r uri dev n ∧ r.builder = true ∧ ok n.id = true then { n with state := .wfr } else n,
       (l.filter fun n => decide (Hit r uri dev n ∧ r.builder = true ∧ ok n.id = true)).map
         fun n => ⟨n.id, r.uri, n.ep, n.path⟩) := by
  induction l with
  | nil => rfl
  | cons n l ih =>
    rw [loop]
    have hm := allMatched_iff n r uri
    simp only [ih, List.map_cons, List.filter_cons]
    by_cases h1 : n.dev = dev
    · by_cases h2 : n.state = .wfu
      · by_cases h3 : allMatched n r uri = 0
        · have hh : ¬ Hit r uri dev n := fun h => hm.mpr ⟨h.2.2.1, h.2.2.2⟩ h3
          simp [h1, h2, h3, hh]
        · have hh : Hit r uri dev n := ⟨h1, h2, (hm.mp h3).1, (hm.mp h3).2⟩
          by_cases h4 : r.builder = true ∧ ok n.id = true
          · obtain ⟨h4, h5⟩ := h4
            subst h1
            simp [h2, hh, h4, h5]
            exact h3
          · simp [h1, h2, hh, h4]
      · have hh : ¬ Hit r uri dev n := fun h => h2 h.2.1
        simp [h1, h2, hh]
    · have hh : ¬ Hit r uri dev n := fun h => h1 h.1
      simp [h1, hh]

theorem loop_stopped (r : Rsc) (uri : Bytes) (dev : Nat) (ok : Nat → Bool) (l : List Ns) :
    loop r uri dev false ok l = (l, []) := by
  induction l with
  | nil => rfl
  | cons n l ih =>
    rw [loop]
    simp only [ih]
    repeat' split
    all_goals first | rfl | contradiction

/-! ### Properties of `setProps` that one property at a time gives -/

/-- What a property does to the number and the device of a selector: nothing. -/
theorem setOne_same {env : Env} {n : Ns} {u : Bool} {p : Bytes × Val} :
    (∀ n' u', setOne env n u p = .go n' u' → n'.id = n.id ∧ n'.dev = n.dev) ∧
      (∀ n', setOne env n u p = .fail n' → n'.id = n.id ∧ n'.dev = n.dev) := by
  obtain ⟨name, v⟩ := p
  unfold setOne
  cases v <;> simp only [setStr, setStrs, setTarget, setState] <;>
    constructor <;> intros <;> (repeat' split at *) <;>
    first
      | contradiction
      | (rename_i h; simp only [Set1.go.injEq, Set1.fail.injEq] at h; first | (obtain ⟨rfl, rfl⟩ := h; exact ⟨rfl, rfl⟩) | (subst h; exact ⟨rfl, rfl⟩))
      | skip

theorem settle_same (n : Ns) (u : Bool) : (settle n u).id = n.id ∧ (settle n u).dev = n.dev := by
  unfold settle; split <;> exact ⟨rfl, rfl⟩

theorem setProps_same (env : Env) (n : Ns) (u : Bool) (rep : Rep) :
    (setProps env n u rep).1.id = n.id ∧ (setProps env n u rep).1.dev = n.dev := by
  induction rep generalizing n u with
  | nil => exact settle_same n u
  | cons p rep ih =>
    rw [setProps]
    split
    · rename_i n' h
      exact setOne_same.2 n' h
    · rename_i n' u' h
      obtain ⟨h1, h2⟩ := setOne_same.1 n' u' h
      rw [(ih n' u').1, (ih n' u').2, h1, h2]
      exact ⟨rfl, rfl⟩

/-! ### The state of one selector under an update -/

theorem setOne_state {env : Env} {n : Ns} {u : Bool} {p : Bytes × Val} :
    (∀ n' u', setOne env n u p = .go n' u' →
      (n'.state = n.state ∨ ((n.state = .err ∨ n.state = .tout) ∧ n'.state = .wfu ∧
        p = (b "state", .str (b "waitingforupdate")))) ∧
      ((n.state ≠ .err ∧ n.state ≠ .tout) → ∀ v, p ≠ (b "state", .str v))) ∧
      (∀ n', setOne env n u p = .fail n' → n'.state = n.state) := by
  obtain ⟨name, v⟩ := p
  have hd : b "state" ≠ b "phref" ∧ b "state" ≠ b "pushtarget" ∧ b "state" ≠ b "pushqif" := by decide
  unfold setOne
  cases v with
  | str v =>
    simp only [setStr, setTarget, setState]
    by_cases h1 : name = b "phref"
    · subst h1
      simp only [if_true]
      refine ⟨fun n' u' h => ?_, fun n' h => by cases h⟩
      cases h
      refine ⟨Or.inl rfl, fun _ v' hc => ?_⟩
      rw [Prod.mk.injEq] at hc
      exact hd.1 hc.1.symm
    · by_cases h2 : name = b "pushtarget"
      · subst h2
        simp only [h1, if_false, if_true]
        refine ⟨fun n' u' h => ⟨Or.inl ?_, fun _ v' hc => ?_⟩, fun n' h => ?_⟩
        · split at h
          · cases h; rfl
          · split at h
            · cases h
            · split at h <;> cases h
              rfl
        · rw [Prod.mk.injEq] at hc
          exact hd.2.1 hc.1.symm
        · split at h
          · cases h
          · split at h
            · cases h; rfl
            · split at h <;> cases h
              rfl
      · by_cases h3 : name = b "pushqif"
        · subst h3
          simp only [h1, h2, if_false, if_true]
          refine ⟨fun n' u' h => ?_, fun n' h => by cases h⟩
          cases h
          refine ⟨Or.inl rfl, fun _ v' hc => ?_⟩
          rw [Prod.mk.injEq] at hc
          exact hd.2.2 hc.1.symm
        · by_cases h4 : name = b "state"
          · subst h4
            simp only [h1, h2, h3, if_false, if_true]
            refine ⟨fun n' u' h => ?_, fun n' h => ?_⟩
            · split at h
              · cases h
              · rename_i hs
                split at h
                · cases h
                · rename_i hv
                  cases h
                  have hs' : n.state = .err ∨ n.state = .tout := by
                    rcases Classical.em (n.state = .err) with h | h
                    · exact Or.inl h
                    · exact Or.inr (Classical.not_not.mp fun h2 => hs ⟨h, h2⟩)
                  refine ⟨Or.inr ⟨hs', rfl, ?_⟩, fun h => absurd h hs⟩
                  rw [Classical.not_not.mp hv]
            · split at h
              · cases h; rfl
              · split at h <;> cases h
                rfl
          · simp only [h1, h2, h3, h4, if_false]
            refine ⟨fun n' u' h => ?_, fun n' h => by cases h⟩
            cases h
            refine ⟨Or.inl rfl, fun _ v' hc => ?_⟩
            rw [Prod.mk.injEq] at hc
            exact h4 hc.1
  | strs l =>
    simp only [setStrs]
    refine ⟨fun n' u' h => ⟨Or.inl ?_, fun _ v' hc => by cases hc⟩, fun n' h => ?_⟩
    · repeat' split at h
      all_goals cases h
      all_goals rfl
    · repeat' split at h
      all_goals cases h
      all_goals rfl
  | _ =>
    refine ⟨fun n' u' h => ?_, fun n' h => by cases h⟩
    cases h
    exact ⟨Or.inl rfl, fun _ v' hc => by cases hc⟩

/-- `pushtarget_is_updated` becomes true by a target only. -/
theorem setOne_upd {env : Env} {n : Ns} {u : Bool} {p : Bytes × Val} {n' : Ns} {u' : Bool}
    (h : setOne env n u p = .go n' u') :
    u' = true → u = true ∨ ∃ v, v ≠ [] ∧ p = (b "pushtarget", .str v) := by
  obtain ⟨name, v⟩ := p
  unfold setOne at h
  intro hu
  cases v with
  | str v =>
    simp only [setStr, setTarget, setState] at h
    split at h
    · cases h; exact Or.inl hu
    · split at h
      · rename_i hn
        split at h
        · cases h; exact Or.inl hu
        · rename_i hv
          exact Or.inr ⟨v, hv, by rw [hn]⟩
      · repeat' split at h
        all_goals first | cases h; exact Or.inl hu | cases h
  | strs l =>
    simp only [setStrs] at h
    repeat' split at h
    all_goals first | cases h; exact Or.inl hu | cases h
  | _ => cases h; exact Or.inl hu

end Verif.Push

namespace Verif.Push

open Verif.Rep (b Bytes Val Rep)
open Spec

/-- In error or after a timeout. -/
def Stopped (n : Ns) : Prop := n.state = .err ∨ n.state = .tout

theorem setProps_state (env : Env) (n : Ns) (u : Bool) (rep : Rep) :
    ((setProps env n u rep).1.state = n.state ∨ (setProps env n u rep).1.state = .wfu) ∧
    (Stopped n → (setProps env n u rep).1.state ≠ n.state →
      (b "state", Val.str (b "waitingforupdate")) ∈ rep) ∧
    (¬ Stopped n → (∃ v, (b "state", Val.str v) ∈ rep) →
      (setProps env n u rep).2 = false) ∧
    (¬ Stopped n → (setProps env n u rep).2 = false → (setProps env n u rep).1.state = n.state) ∧
    (¬ Stopped n → (setProps env n u rep).1.state ≠ n.state →
      u = true ∨ ∃ v, v ≠ [] ∧ (b "pushtarget", Val.str v) ∈ rep) := by
  induction rep generalizing n u with
  | nil =>
    simp only [setProps, settle]
    unfold Stopped
    refine ⟨?_, ?_, ?_, ?_, ?_⟩
    · split
      · exact Or.inr rfl
      · exact Or.inl rfl
    · intro hs hne
      split at hne
      · rename_i h
        rcases hs with hs | hs
        · exact absurd hs h.2.1
        · exact absurd hs h.2.2.1
      · exact absurd rfl hne
    · rintro _ ⟨v, hv⟩; cases hv
    · intro _ h; cases h
    · intro _ hne
      split at hne
      · rename_i h; exact Or.inl h.1
      · exact absurd rfl hne
  | cons p rep ih =>
    rw [setProps]
    cases hp : setOne env n u p with
    | fail n' =>
      have h := setOne_state.2 n' hp
      dsimp only
      refine ⟨Or.inl h, fun _ hne => absurd h hne, fun _ _ => by rfl, fun _ _ => h, fun _ hne => absurd h hne⟩
    | go n' u' =>
      obtain ⟨h1, h2⟩ := setOne_state.1 n' u' hp
      obtain ⟨i1, i2, i3, i4, i5⟩ := ih n' u'
      dsimp only
      rcases h1 with h1 | ⟨hs, hw, he⟩
      · have hst : Stopped n' ↔ Stopped n := by unfold Stopped; rw [h1]
        rw [h1] at i1 i2 i4 i5
        rw [hst] at i2 i3 i4 i5
        refine ⟨i1, fun a c => List.mem_cons_of_mem _ (i2 a c), fun a ⟨v, hv⟩ => ?_, i4, fun a c => ?_⟩
        · have hns : n.state ≠ .err ∧ n.state ≠ .tout := ⟨fun h => a (Or.inl h), fun h => a (Or.inr h)⟩
          rcases List.mem_cons.mp hv with hv | hv
          · exact absurd hv.symm (h2 hns v)
          · exact i3 a ⟨v, hv⟩
        · rcases i5 a c with hu | ⟨v, hv, hm⟩
          · rcases setOne_upd hp hu with hu | ⟨v, hv, rfl⟩
            · exact Or.inl hu
            · exact Or.inr ⟨v, hv, List.mem_cons_self⟩
          · exact Or.inr ⟨v, hv, List.mem_cons_of_mem _ hm⟩
      · refine ⟨?_, fun _ _ => by rw [he]; exact List.mem_cons_self, fun a => absurd hs a, fun a => absurd hs a,
          fun a => absurd hs a⟩
        rw [hw] at i1
        rcases i1 with i1 | i1 <;> exact Or.inr i1

/-- An accepted target in a selector that waits for provisioning or for a response. -/
theorem setProps_target (env : Env) (n : Ns) (u : Bool) (rep : Rep)
    (ha : (setProps env n u rep).2 = true) (hs : ¬ Stopped n)
    (ht : u = true ∨ ∃ v, v ≠ [] ∧ (b "pushtarget", Val.str v) ∈ rep) :
    (setProps env n u rep).1.state = .wfu := by
  induction rep generalizing n u with
  | nil =>
    have hu : u = true := by
      rcases ht with h | ⟨v, _, h⟩
      · exact h
      · cases h
    simp only [setProps, settle, hu, true_and]
    split
    · rfl
    · rename_i h
      exact Classical.byContradiction fun hw => h ⟨fun h => hs (Or.inl h), fun h => hs (Or.inr h), hw⟩
  | cons p rep ih =>
    rw [setProps] at ha ⊢
    cases hp : setOne env n u p with
    | fail n' => rw [hp] at ha; cases ha
    | go n' u' =>
      rw [hp] at ha
      dsimp only at ha ⊢
      obtain ⟨h1, h2⟩ := setOne_state.1 n' u' hp
      have hs' : ¬ Stopped n' := by
        rcases h1 with h1 | ⟨h, _⟩
        · unfold Stopped; rw [h1]; exact hs
        · exact absurd h hs
      refine ih n' u' ha hs' ?_
      have keep : u = true → u' = true := by
        intro hu
        obtain ⟨name, v⟩ := p
        unfold setOne at hp
        cases v with
        | str v =>
          simp only [setStr, setTarget, setState] at hp
          repeat' split at hp
          all_goals first | (cases hp; first | exact hu | rfl) | cases hp
        | strs l =>
          simp only [setStrs] at hp
          repeat' split at hp
          all_goals first | (cases hp; exact hu) | cases hp
        | _ => cases hp; exact hu
      rcases ht with hu | ⟨v, hv, hm⟩
      · exact Or.inl (keep hu)
      · rcases List.mem_cons.mp hm with hm | hm
        · left
          rw [← hm] at hp
          have hd : b "pushtarget" ≠ b "phref" := by decide
          simp only [setOne, setStr, setTarget, if_neg hd, if_neg hv, if_true] at hp
          repeat' split at hp
          all_goals first | (cases hp; rfl) | cases hp
        · exact Or.inr ⟨v, hv, hm⟩

/-! ### The list of selectors -/

/-- Numbers are used once. -/
def Ids (s : St) : Prop :=
  (s.nss.map (·.id)).Nodup ∧ (∀ n, n ∈ s.nss → n.id < s.next) ∧ ∀ i, i ∈ s.inflight → i < s.next

theorem ns?_some {s : St} {id : Nat} {n : Ns} (h : s.ns? id = some n) : n ∈ s.nss ∧ n.id = id := by
  unfold St.ns? at h
  exact ⟨List.mem_of_find?_eq_some h, by simpa using List.find?_some h⟩

theorem ns?_of_mem {s : St} (hi : (s.nss.map (·.id)).Nodup) {n : Ns} (h : n ∈ s.nss) : s.ns? n.id = some n := by
  unfold St.ns?
  revert hi h
  generalize s.nss = l
  intro hi h
  induction l with
  | nil => cases h
  | cons a l ih =>
    rw [List.map_cons, List.nodup_cons] at hi
    rw [List.find?_cons]
    rcases List.mem_cons.mp h with rfl | h
    · simp
    · have hne : a.id ≠ n.id := fun hc => hi.1 (by rw [hc]; exact List.mem_map_of_mem h)
      rw [beq_false_of_ne hne]
      exact ih hi.2 h

theorem setNs_ids (s : St) (n : Ns) : (s.setNs n).nss.map (·.id) = s.nss.map (·.id) := by
  unfold St.setNs
  simp only [List.map_map]
  apply List.map_congr_left
  intro m _
  simp only [Function.comp]
  split
  · rename_i h; exact h.symm
  · rfl

theorem mem_setNs {s : St} {n m : Ns} (h : m ∈ (s.setNs n).nss) :
    (m = n ∧ ∃ o, o ∈ s.nss ∧ o.id = n.id) ∨ (m ∈ s.nss ∧ m.id ≠ n.id) := by
  unfold St.setNs at h
  obtain ⟨o, ho, rfl⟩ := List.mem_map.mp h
  split
  · rename_i he; exact Or.inl ⟨rfl, o, ho, he⟩
  · rename_i he; exact Or.inr ⟨ho, he⟩

theorem setNs_ns? {s : St} (hi : (s.nss.map (·.id)).Nodup) {n n' : Ns} {id : Nat}
    (h : s.ns? id = some n) (hid : n'.id = id) : (s.setNs n').ns? id = some n' := by
  obtain ⟨hm, hn⟩ := ns?_some h
  have hm' : n' ∈ (s.setNs n').nss := by
    unfold St.setNs
    exact List.mem_map.mpr ⟨n, hm, by rw [if_pos (by rw [hn, hid])]⟩
  have := ns?_of_mem (s := s.setNs n') (by rw [setNs_ids]; exact hi) hm'
  rwa [hid] at this

theorem changed_ids (env : Env) (uri : Bytes) (dev : Nat) (running : Bool) (ok : Nat → Bool) (s : St) :
    (changed env uri dev running ok s).nss.map (·.id) = s.nss.map (·.id) ∧
      (changed env uri dev running ok s).next = s.next := by
  unfold changed
  split
  · exact ⟨rfl, rfl⟩
  · split
    · exact ⟨rfl, rfl⟩
    · cases running with
      | false => simp [loop_stopped]
      | true =>
        simp only [loop_eq, List.map_map]
        refine ⟨List.map_congr_left fun n _ => ?_, trivial⟩
        simp only [Function.comp]
        split <;> rfl

theorem changed_mem {env : Env} {uri : Bytes} {dev : Nat} {running : Bool} {ok : Nat → Bool} {s : St} {m : Ns}
    (h : m ∈ (changed env uri dev running ok s).nss) :
    ∃ n, n ∈ s.nss ∧ (m = n ∨ (n.state = .wfu ∧ m = { n with state := .wfr })) := by
  unfold changed at h
  split at h
  · exact ⟨m, h, Or.inl rfl⟩
  · split at h
    · exact ⟨m, h, Or.inl rfl⟩
    · cases running with
      | false => rw [loop_stopped] at h; exact ⟨m, h, Or.inl rfl⟩
      | true =>
        simp only [loop_eq] at h
        obtain ⟨n, hn, rfl⟩ := List.mem_map.mp h
        refine ⟨n, hn, ?_⟩
        split
        · rename_i hh; exact Or.inr ⟨hh.1.2.1, rfl⟩
        · exact Or.inl rfl

theorem changed_sent {env : Env} {uri : Bytes} {dev : Nat} {running : Bool} {ok : Nat → Bool} {s : St} {x : Sent}
    (h : x ∈ (changed env uri dev running ok s).sent) :
    x ∈ s.sent ∨ ∃ n, n ∈ s.nss ∧ n.state = .wfu ∧ x.id = n.id ∧ x.ep = n.ep ∧ x.path = n.path := by
  unfold changed at h
  split at h
  · exact Or.inl h
  · split at h
    · exact Or.inl h
    · cases running with
      | false => rw [loop_stopped] at h; simp at h; exact Or.inl h
      | true =>
        simp only [loop_eq] at h
        rcases List.mem_append.mp h with h | h
        · exact Or.inl h
        · obtain ⟨n, hn, rfl⟩ := List.mem_map.mp h
          rw [List.mem_filter] at hn
          have hh := hn.2
          simp only [decide_eq_true_eq] at hh
          exact Or.inr ⟨n, hn.1, hh.1.2.1, rfl, rfl, rfl⟩

theorem changed_inflight {env : Env} {uri : Bytes} {dev : Nat} {running : Bool} {ok : Nat → Bool} {s : St} {i : Nat}
    (h : i ∈ (changed env uri dev running ok s).inflight) :
    i ∈ s.inflight ∨ ∃ n, n ∈ s.nss ∧ n.state = .wfu ∧ i = n.id := by
  unfold changed at h
  split at h
  · exact Or.inl h
  · split at h
    · exact Or.inl h
    · cases running with
      | false => rw [loop_stopped] at h; simp at h; exact Or.inl h
      | true =>
        simp only [loop_eq] at h
        rcases List.mem_append.mp h with h | h
        · exact Or.inl h
        · obtain ⟨x, hx, rfl⟩ := List.mem_map.mp h
          obtain ⟨n, hn, rfl⟩ := List.mem_map.mp hx
          rw [List.mem_filter] at hn
          have hh := hn.2
          simp only [decide_eq_true_eq] at hh
          exact Or.inr ⟨n, hn.1, hh.1.2.1, rfl⟩

theorem step_ids {env : Env} {s s' : St} {o : Op} (hi : Ids s) (h : step env s o = .ok s') : Ids s' := by
  obtain ⟨h1, h2, h3⟩ := hi
  cases o with
  | create dev rep =>
    simp only [step, Out.ok.injEq, create] at h
    subst h
    split
    · refine ⟨?_, ?_, fun i hi => Nat.lt_succ_of_lt (h3 i hi)⟩
      · simp only [List.map_append, List.map_cons, List.map_nil]
        rw [List.nodup_append]
        refine ⟨h1, by simp, ?_⟩
        intro a ha c hc
        obtain ⟨n, hn, rfl⟩ := List.mem_map.mp ha
        rw [List.mem_singleton, (setProps_same _ _ _ _).1] at hc
        subst hc
        exact Nat.ne_of_lt (h2 n hn)
      · intro n hn
        rcases List.mem_append.mp hn with hn | hn
        · exact Nat.lt_succ_of_lt (h2 n hn)
        · rw [List.mem_singleton] at hn
          subst hn
          rw [(setProps_same _ _ _ _).1]
          exact Nat.lt_succ_self _
    · exact ⟨h1, fun n hn => Nat.lt_succ_of_lt (h2 n hn), fun i hi => Nat.lt_succ_of_lt (h3 i hi)⟩
  | update id rep =>
    simp only [step, Out.ok.injEq, update] at h
    subst h
    split
    · exact ⟨h1, h2, h3⟩
    · rename_i n hn
      refine ⟨by rw [setNs_ids]; exact h1, ?_, h3⟩
      intro m hm
      rcases mem_setNs hm with ⟨rfl, o, ho, he⟩ | ⟨hm, _⟩
      · rw [← he]; exact h2 o ho
      · exact h2 m hm
  | delete id =>
    simp only [step, Out.ok.injEq, delete] at h
    subst h
    refine ⟨?_, fun n hn => h2 n (List.mem_filter.mp hn).1, h3⟩
    exact (List.filter_sublist.map _).nodup h1
  | changed uri dev running ok =>
    simp only [step, Out.ok.injEq] at h
    subst h
    obtain ⟨e1, e2⟩ := changed_ids env uri dev running ok s
    refine ⟨by rw [e1]; exact h1, ?_, ?_⟩
    · intro n hn
      obtain ⟨m, hm, hh⟩ := changed_mem hn
      rw [e2]
      rcases hh with rfl | ⟨_, rfl⟩
      · exact h2 _ hm
      · exact h2 m hm
    · intro i hi
      rw [e2]
      rcases changed_inflight hi with hi | ⟨n, hn, _, rfl⟩
      · exact h3 i hi
      · exact h2 n hn
  | respond k code =>
    simp only [step, respond] at h
    split at h
    · cases h; exact ⟨h1, h2, h3⟩
    · rename_i id hid
      split at h
      · cases h
      · rename_i n hn
        cases h
        refine ⟨by simp only [setNs_ids]; exact h1, ?_, ?_⟩
        · intro m hm
          rcases mem_setNs hm with ⟨rfl, o, ho, he⟩ | ⟨hm, _⟩
          · exact h2 n (ns?_some hn).1
          · exact h2 m hm
        · intro i hi
          exact h3 i (List.mem_of_mem_eraseIdx hi)

theorem run_ids {env : Env} {os : List Op} {s s' : St} (hi : Ids s) (h : run env s os = .ok s') : Ids s' := by
  induction os generalizing s with
  | nil => cases h; exact hi
  | cons o os ih =>
    rw [run] at h
    cases hs : step env s o with
    | ub => rw [hs] at h; cases h
    | ok s1 => rw [hs] at h; exact ih (step_ids hi hs) h

theorem ids_empty : Ids {} := ⟨by simp, by simp, by simp⟩

end Verif.Push
