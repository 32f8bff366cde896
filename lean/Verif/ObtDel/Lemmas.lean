import Verif.ObtDel.Model
import Verif.Acl.UpdateLemmas

/-! Lemmas for the deletion of entries and credentials by an onboarding tool. -/

namespace Verif.ObtDel

open Verif.Acl (Ace AclState Dos)
open Verif.Cred (Cred)

/-! ### Contexts -/

theorem find_mem {i : Nat} {s : St} {c : Ctx} (h : find i s = some c) : c ∈ s.ctxs ∧ c.id = i := by
  refine ⟨List.mem_of_find?_eq_some h, ?_⟩
  have := List.find?_some h
  simpa using this

theorem mem_replace {c x : Ctx} {l : List Ctx} (h : x ∈ replace c l) : x = c ∨ (x ∈ l ∧ x.id ≠ c.id) := by
  simp only [replace, List.mem_map] at h
  obtain ⟨y, hy, rfl⟩ := h
  split
  · exact .inl rfl
  · next hn => exact .inr ⟨hy, hn⟩

theorem replace_ids (c : Ctx) (l : List Ctx) : (replace c l).map (·.id) = l.map (·.id) := by
  simp only [replace, List.map_map]
  apply List.map_congr_left
  intro x _
  simp only [Function.comp]
  split
  · next h => exact h.symm
  · rfl

/-! ### The log -/

/-- The numbers of the callbacks made. -/
def toldIds (l : List Ev) : List Nat := l.filterMap fun | .told i _ => some i | _ => none

theorem toldIds_append (l m : List Ev) : toldIds (l ++ m) = toldIds l ++ toldIds m := List.filterMap_append

/-- The device deleted what the context asked for. -/
def WasDeleted (c : Ctx) (l : List Ev) : Prop := Ev.deleted c.id c.dev c.kind c.num ∈ l

/-- After that it was switched to normal operation. -/
def WasDone (c : Ctx) (l : List Ev) : Prop :=
  ∃ a b, l = a ++ Ev.deleted c.id c.dev c.kind c.num :: b ∧ Ev.switched c.id c.dev .rfnop ∈ b

theorem WasDone.more {c : Ctx} {l : List Ev} (h : WasDone c l) (m : List Ev) : WasDone c (l ++ m) := by
  obtain ⟨a, b, rfl, hb⟩ := h
  exact ⟨a, b ++ m, by simp, by simp [hb]⟩

theorem WasDeleted.more {c : Ctx} {l : List Ev} (h : WasDeleted c l) (m : List Ev) : WasDeleted c (l ++ m) :=
  List.mem_append_left _ h

theorem WasDeleted.done {c : Ctx} {l : List Ev} (h : WasDeleted c l) : WasDone c (l ++ [.switched c.id c.dev .rfnop]) := by
  obtain ⟨a, b, hab⟩ := List.append_of_mem h
  exact ⟨a, b ++ [.switched c.id c.dev .rfnop], by rw [hab]; simp, by simp⟩

/-- What the log says about a pending context. -/
structure CtxOk (c : Ctx) (l : List Ev) : Prop where
  started : Ev.started c.id c.dev c.kind c.num ∈ l
  del : c.stage = .del → ∀ r, c.reply = some r → r < badRequest → WasDeleted c l
  nop : c.stage = .toRfnop → WasDeleted c l
  done : c.stage = .toRfnop → ∀ r, c.reply = some r → r < badRequest → WasDone c l
  codes : ∀ r, c.reply = some r → r ≠ requestTimeout

theorem CtxOk.more {c : Ctx} {l : List Ev} (h : CtxOk c l) (m : List Ev) : CtxOk c (l ++ m) :=
  ⟨List.mem_append_left _ h.started, fun q r hr hl => (h.del q r hr hl).more m, fun q => (h.nop q).more m,
    fun q r hr hl => (h.done q r hr hl).more m, h.codes⟩

/-- A callback with success is preceded by the deletion and the switch. -/
def Truthful (l : List Ev) : Prop := ∀ a b i, l = a ++ Ev.told i true :: b →
  ∃ d k n, Ev.started i d k n ∈ a ∧ ∃ x y, a = x ++ Ev.deleted i d k n :: y ∧ Ev.switched i d .rfnop ∈ y

/-- Invariant. -/
structure Inv (s : St) : Prop where
  ids : (s.ctxs.map (·.id) ++ toldIds s.log).Nodup
  lt : ∀ i ∈ s.ctxs.map (·.id) ++ toldIds s.log, i < s.made
  ok : ∀ c ∈ s.ctxs, CtxOk c s.log
  truth : Truthful s.log

theorem truthful_snoc {l : List Ev} {e : Ev} (h : Truthful l) (he : ∀ i, e = .told i true → ∃ c, c.id = i ∧ CtxOk c l ∧ WasDone c l) :
    Truthful (l ++ [e]) := by
  intro a b i hab
  rcases List.eq_nil_or_concat b with rfl | ⟨b', x, rfl⟩
  · have := List.append_inj' hab rfl
    obtain ⟨rfl, h2⟩ := this
    simp only [List.cons.injEq, and_true] at h2
    obtain ⟨c, rfl, hc, u, v, huv⟩ := he i h2
    exact ⟨c.dev, c.kind, c.num, hc.started, u, v, huv⟩
  · rw [List.concat_eq_append, ← List.cons_append, ← List.append_assoc] at hab
    exact h a b' i (List.append_inj' hab rfl).1

theorem truthful_snoc' {l : List Ev} {e : Ev} (h : Truthful l) (he : ∀ i, e ≠ .told i true) : Truthful (l ++ [e]) :=
  truthful_snoc h fun i q => absurd q (he i)

/-- Fair events: the tool is told of failures with the codes that are no answers, and
not with that of requests with a timeout, which these are not
(api/client/oc_client_cb.c:283). -/
def Op.Fair : Op → Prop
  | .fail _ code _ => badRequest ≤ code ∧ code ≠ requestTimeout
  | _ => True

theorem switchOk_lt {code : Nat} (h : switchOk code = true) (hc : code ≠ requestTimeout) : code < badRequest := by
  unfold switchOk at h
  simp only [hc, ne_eq, not_false_eq_true, decide_true, Bool.and_true, Bool.not_eq_true', decide_eq_false_iff_not] at h
  omega

theorem delete_code (k : Kind) (n : Int) (d : Dev) :
    (delete k n d).1 ≠ requestTimeout ∧ ((delete k n d).1 < badRequest → (delete k n d).1 = deletedCode) := by
  cases k
  · simp only [delete, deleteAce]
    split
    · exact ⟨by first | decide | (dsimp only; decide), by first | decide | (dsimp only; decide)⟩
    · dsimp only; split <;> exact ⟨by first | decide | (dsimp only; decide), by first | decide | (dsimp only; decide)⟩
  · simp only [delete, deleteCred]
    split
    · exact ⟨by first | decide | (dsimp only; decide), by first | decide | (dsimp only; decide)⟩
    · split
      · exact ⟨by first | decide | (dsimp only; decide), by first | decide | (dsimp only; decide)⟩
      · split <;> exact ⟨by first | decide | (dsimp only; decide), by first | decide | (dsimp only; decide)⟩

/-- Replacing a pending context by one that is right keeps the invariant. -/
theorem inv_replace {s : St} (h : Inv s) {c c' : Ctx} (_ : c ∈ s.ctxs) (_ : c'.id = c.id) (m : List Ev)
    (ht : ∀ e ∈ m, ∀ i o, e ≠ .told i o) (hok : CtxOk c' (s.log ++ m)) (devs : Nat → Dev) :
    Inv { s with devs := devs, ctxs := replace c' s.ctxs, log := s.log ++ m } := by
  have hm : toldIds m = [] := by
    unfold toldIds
    rw [List.filterMap_eq_nil_iff]
    intro e he
    cases e with
    | told i o => exact absurd rfl (ht _ he i o)
    | _ => rfl
  have htr : ∀ m, (∀ e ∈ m, ∀ i o, e ≠ Ev.told i o) → ∀ l, Truthful l → Truthful (l ++ m) := by
    intro m
    induction m with
    | nil => intro _ l hl; simpa using hl
    | cons e m ih =>
      intro hm l hl
      rw [List.append_cons]
      exact ih (fun x hx => hm x (by simp [hx])) _ (truthful_snoc' hl fun i => hm e (by simp) i true)
  refine ⟨?_, ?_, ?_, htr m ht _ h.truth⟩
  · simp only [replace_ids, toldIds_append, hm, List.append_nil]; exact h.ids
  · simp only [replace_ids, toldIds_append, hm, List.append_nil]; exact h.lt
  · intro x hx
    rcases mem_replace hx with rfl | ⟨hx, _⟩
    · exact hok
    · exact (h.ok x hx).more m

theorem inv_finish {s : St} (h : Inv s) {c : Ctx} (hc : c ∈ s.ctxs) (ok : Bool) (hok : ok = true → WasDone c s.log) :
    Inv (finish c.id ok s) := by
  unfold finish
  have hto : toldIds (s.log ++ [Ev.told c.id ok]) = toldIds s.log ++ [c.id] := toldIds_append _ _
  have hsub : (s.ctxs.filter fun x => x.id != c.id).map (·.id) = (s.ctxs.map (·.id)).filter fun i => i != c.id := by
    rw [List.filter_map]; rfl
  have hnd := h.ids
  rw [List.nodup_append] at hnd
  have hcm : c.id ∈ s.ctxs.map (·.id) := List.mem_map_of_mem hc
  refine ⟨?_, ?_, ?_, ?_⟩
  · dsimp only
    rw [hto, hsub, List.nodup_append]
    refine ⟨hnd.1.filter _, ?_, ?_⟩
    · rw [List.nodup_append]
      refine ⟨hnd.2.1, by simp, ?_⟩
      intro a ha b hb
      simp only [List.mem_singleton] at hb
      subst hb
      exact fun q => hnd.2.2 _ hcm _ ha q.symm
    · intro a ha b hb
      simp only [List.mem_filter, bne_iff_ne, ne_eq] at ha
      simp only [List.mem_append, List.mem_singleton] at hb
      rcases hb with hb | hb
      · exact hnd.2.2 a ha.1 b hb
      · exact fun q => ha.2 (q.trans hb)
  · dsimp only
    rw [hto, hsub]
    intro i hi
    simp only [List.mem_append, List.mem_filter, List.mem_singleton] at hi
    rcases hi with hi | hi | hi
    · exact h.lt i (by simp only [List.mem_append]; exact .inl hi.1)
    · exact h.lt i (by simp only [List.mem_append]; exact .inr hi)
    · exact h.lt i (by simp only [List.mem_append]; exact .inl (hi ▸ hcm))
  · intro x hx
    exact (h.ok x (List.mem_filter.1 hx).1).more _
  · refine truthful_snoc h.truth fun i q => ?_
    simp only [Ev.told.injEq] at q
    exact ⟨c, q.1, h.ok c hc, hok q.2⟩

theorem inv_handle {s : St} (h : Inv s) {c : Ctx} (hc : c ∈ s.ctxs) (code : Nat) (next : Bool) (hcode : code ≠ requestTimeout)
    (hr : code < badRequest → c.reply = some code) : Inv (handle c code next s) := by
  have hk := h.ok c hc
  have fin := fun (ok : Bool) (q : ok = true → WasDone c s.log) => inv_finish h hc ok q
  have rep : ∀ st, (st ≠ Stage.toRfnop ∨ WasDeleted c s.log) →
      Inv { s with ctxs := replace { c with stage := st, reply := none } s.ctxs } := by
    intro st hst
    have := inv_replace h (c' := { c with stage := st, reply := none }) hc rfl [] (by intro e he; cases he)
      (by
        rw [List.append_nil]
        exact ⟨hk.started, (by intro _ r q; cases q),
          (by intro q; rcases hst with hst | hst; exact absurd q hst; exact hst), (by intro _ r q; cases q), (by intro r q; cases q)⟩) s.devs
    simpa using this
  unfold handle
  split
  · split
    · exact fin false (by intro q; cases q)
    · split
      · exact fin false (by intro q; cases q)
      · exact rep .del (.inl (by decide))
  · next hst =>
    split
    · exact fin false (by intro q; cases q)
    · next hlt =>
      split
      · exact fin false (by intro q; cases q)
      · exact rep .toRfnop (.inr (hk.del hst code (hr (by omega)) (by omega)))
  · next hst =>
    refine fin _ fun q => ?_
    have hl := switchOk_lt q hcode
    exact hk.done hst code (hr hl) hl

theorem inv_serve {s : St} (h : Inv s) (i : Nat) (ok : Bool) : Inv (serve i ok s) := by
  unfold serve
  split
  · exact h
  · next c hf =>
    obtain ⟨hc, hi⟩ := find_mem hf
    subst hi
    have hk := h.ok c hc
    split
    · exact h
    · split
      · have := inv_replace h (c' := { c with reply := some forbidden }) hc rfl [] (by intro e he; cases he)
          (by
            rw [List.append_nil]
            exact ⟨hk.started, (by intro _ r q hl; cases q; exact absurd hl (by decide)), fun q => hk.nop q,
              (by intro _ r q hl; cases q; exact absurd hl (by decide)), (by intro r q; cases q; decide)⟩) s.devs
        simpa using this
      · split
        · next hst =>
          refine inv_replace h (c' := { c with reply := some changed }) hc rfl _ (by simp) ?_ _
          have hk' := hk.more [.switched c.id c.dev .rfpro]
          exact ⟨hk'.started, (by intro q; rw [hst] at q; cases q), fun q => hk'.nop q, (by intro q; rw [hst] at q; cases q),
            (by intro r q; cases q; decide)⟩
        · next hst =>
          have hd := delete_code c.kind c.num (s.devs c.dev)
          refine inv_replace h (c' := { c with reply := some (delete c.kind c.num (s.devs c.dev)).1 }) hc rfl _ ?_ ?_ _
          · intro e he i o
            split at he
            · simp only [List.mem_singleton] at he; subst he; intro q; cases q
            · cases he
          · refine ⟨List.mem_append_left _ hk.started, ?_, (by intro q; rw [hst] at q; cases q), (by intro q; rw [hst] at q; cases q), ?_⟩
            · intro _ r q hl
              cases q
              have := hd.2 hl
              rw [if_pos this]
              exact List.mem_append_right _ (by simp)
            · intro r q; cases q; exact hd.1
        · next hst =>
          refine inv_replace h (c' := { c with reply := some changed }) hc rfl _ (by simp) ?_ _
          have hk' := hk.more [.switched c.id c.dev .rfnop]
          exact ⟨hk'.started, (by intro q; rw [hst] at q; cases q), fun q => hk'.nop q,
            (by intro _ r _ _; exact (hk.nop hst).done), (by intro r q; cases q; decide)⟩

theorem inv_start {s : St} (h : Inv s) (k : Kind) (d : Nat) (n : Int) (ok : Bool) : Inv (start k d n ok s).2 := by
  unfold start
  split
  · exact h
  · have hn : s.made ∉ s.ctxs.map (·.id) ++ toldIds s.log := fun q => Nat.lt_irrefl _ (h.lt _ q)
    have hto : toldIds (s.log ++ [Ev.started s.made d k n]) = toldIds s.log := by rw [toldIds_append]; exact List.append_nil _
    have hnd := h.ids
    refine ⟨?_, ?_, ?_, truthful_snoc' h.truth (by intro i q; cases q)⟩
    · dsimp only
      rw [hto, List.map_append]
      simp only [List.map_cons, List.map_nil]
      rw [List.nodup_append] at hnd
      simp only [List.mem_append, not_or] at hn
      rw [List.nodup_append, List.nodup_append]
      refine ⟨⟨hnd.1, by simp, ?_⟩, hnd.2.1, ?_⟩
      · intro a ha b hb; simp only [List.mem_singleton] at hb; subst hb; exact fun q => hn.1 (q ▸ ha)
      · intro a ha b hb
        simp only [List.mem_append, List.mem_singleton] at ha
        rcases ha with ha | ha
        · exact hnd.2.2 a ha b hb
        · subst ha; exact fun q => hn.2 (q ▸ hb)
    · dsimp only
      rw [hto, List.map_append]
      intro i hi
      simp only [List.map_cons, List.map_nil, List.mem_append, List.mem_singleton] at hi
      rcases hi with (hi | hi) | hi
      · have := h.lt i (by simp only [List.mem_append]; exact .inl hi); omega
      · omega
      · have := h.lt i (by simp only [List.mem_append]; exact .inr hi); omega
    · intro c hc
      simp only [List.mem_append, List.mem_singleton] at hc
      rcases hc with hc | rfl
      · exact (h.ok c hc).more _
      · exact ⟨by simp, (by intro q; cases q), (by intro q; cases q), (by intro q; cases q), (by intro r q; cases q)⟩

theorem inv_step {s : St} (h : Inv s) (o : Op) (hf : o.Fair) : Inv (step s o) := by
  cases o with
  | start k d n ok => exact inv_start h k d n ok
  | serve i ok => exact inv_serve h i ok
  | deliver i next =>
    simp only [step, deliver]
    split
    · exact h
    · next c hc =>
      obtain ⟨hc, _⟩ := find_mem hc
      split
      · exact h
      · next r hr => exact inv_handle h hc r next ((h.ok c hc).codes r hr) fun _ => hr
  | fail i code next =>
    simp only [step, fail]
    split
    · exact h
    · next c hc =>
      obtain ⟨hc, _⟩ := find_mem hc
      exact inv_handle h hc code next hf.2 fun q => absurd q (Nat.not_lt.2 hf.1)
  | env d x => exact ⟨h.ids, h.lt, h.ok, h.truth⟩

theorem inv_run : ∀ (ops : List Op) (s : St), Inv s → (∀ o ∈ ops, o.Fair) → Inv (run ops s) := by
  intro ops
  induction ops with
  | nil => intro s h _; exact h
  | cons o l ih => intro s h hf; exact ih _ (inv_step h o (hf o (by simp))) fun x hx => hf x (by simp [hx])

theorem inv_init (devs : Nat → Dev) : Inv { devs := devs } :=
  ⟨List.nodup_nil, (by intro i hi; cases hi), (by intro c hc; cases hc), (by intro a b i q; cases a <;> cases q)⟩

/-! ### Lookups -/

theorem find_replace {l : List Ctx} {i : Nat} {c c' : Ctx} (h : l.find? (fun x => x.id == i) = some c) (hi : c'.id = i) :
    (replace c' l).find? (fun x => x.id == i) = some c' := by
  induction l with
  | nil => cases h
  | cons x l ih =>
    rw [List.find?_cons] at h
    rw [replace, List.map_cons, List.find?_cons]
    by_cases hx : x.id = i
    · rw [if_pos (hx.trans hi.symm)]
      simp [hi]
    · rw [if_neg (fun q => hx (q.trans hi))]
      have hb : (x.id == i) = false := by simpa using hx
      rw [hb] at h ⊢
      exact ih h

theorem find_replace_ne {l : List Ctx} {j : Nat} {c : Ctx} (h : j ≠ c.id) :
    (replace c l).find? (fun x => x.id == j) = l.find? (fun x => x.id == j) := by
  induction l with
  | nil => rfl
  | cons x l ih =>
    rw [replace, List.map_cons, List.find?_cons, List.find?_cons]
    by_cases hx : x.id = c.id
    · rw [if_pos hx]
      have h1 : (c.id == j) = false := by simpa using fun q => h q.symm
      have h2 : (x.id == j) = false := by rw [hx]; exact h1
      rw [h1, h2]
      exact ih
    · rw [if_neg hx]
      split
      · rfl
      · exact ih

theorem find_finish_ne {i j : Nat} (h : j ≠ i) (ok : Bool) (s : St) : find j (finish i ok s) = find j s := by
  unfold find finish
  dsimp only
  induction s.ctxs with
  | nil => rfl
  | cons x l ih =>
    rw [List.filter_cons]
    split
    · rw [List.find?_cons, List.find?_cons, ih]
    · next hx =>
      have hx : x.id = i := by simpa using hx
      rw [List.find?_cons, ih]
      have h2 : (x.id == j) = false := by rw [hx]; simpa using fun q => h q.symm
      rw [h2]

theorem find_handle_ne {c : Ctx} {j : Nat} (h : j ≠ c.id) (code : Nat) (next : Bool) (s : St) :
    find j (handle c code next s) = find j s := by
  unfold handle
  repeat' split
  all_goals first | exact find_finish_ne h _ _ | exact find_replace_ne h

theorem find_finish (i : Nat) (ok : Bool) (s : St) : find i (finish i ok s) = none := by
  unfold find finish
  rw [List.find?_eq_none]
  intro x hx
  have := (List.mem_filter.1 hx).2
  simpa using this

/-- How many requests are still to come (modelling convention). -/
def rank : Stage → Nat
  | .toRfpro => 2
  | .del => 1
  | .toRfnop => 0

theorem handle_find {s : St} {c : Ctx} (h : find c.id s = some c) (code : Nat) (next : Bool) :
    find c.id (handle c code next s) = none ∨
      ∃ c', find c.id (handle c code next s) = some c' ∧ rank c'.stage < rank c.stage ∧ c'.reply = none := by
  have fin := fun ok => Or.inl (b := ∃ c', find c.id (finish c.id ok s) = some c' ∧ rank c'.stage < rank c.stage ∧ c'.reply = none)
    (find_finish c.id ok s)
  unfold handle
  split
  · next hst =>
    split
    · exact fin _
    · split
      · exact fin _
      · exact .inr ⟨_, find_replace h rfl, by rw [hst]; dsimp only; decide, rfl⟩
  · next hst =>
    split
    · exact fin _
    · split
      · exact fin _
      · exact .inr ⟨_, find_replace h rfl, by rw [hst]; dsimp only; decide, rfl⟩
  · exact fin _

/-- A request that reached the device has an answer, and the context stays. -/
theorem serve_find {s : St} {c : Ctx} (h : find c.id s = some c) (ok : Bool) :
    ∃ c' r, find c.id (serve c.id ok s) = some c' ∧ c'.id = c.id ∧ c'.stage = c.stage ∧ c'.reply = some r := by
  unfold serve
  rw [h]
  dsimp only
  split
  · next r hr => exact ⟨c, r, h, rfl, rfl, hr⟩
  · split
    · exact ⟨_, forbidden, find_replace h rfl, rfl, rfl, rfl⟩
    · split
      · exact ⟨_, _, find_replace h rfl, rfl, rfl, rfl⟩
      · exact ⟨_, _, find_replace h rfl, rfl, rfl, rfl⟩
      · exact ⟨_, _, find_replace h rfl, rfl, rfl, rfl⟩

theorem eraseId_filter (i : Int) : ∀ l : List Cred, (l.map (·.id)).Nodup → Cred.eraseId i l = l.filter fun c => c.id != i
  | [], _ => rfl
  | c :: l, h => by
    rw [List.map_cons, List.nodup_cons] at h
    rw [Cred.eraseId, List.filter_cons]
    by_cases hc : c.id = i
    · rw [if_pos hc, if_neg (by simp [hc])]
      symm
      rw [List.filter_eq_self]
      intro x hx
      simp only [bne_iff_ne, ne_eq]
      exact fun q => h.1 (by rw [hc, ← q]; exact List.mem_map_of_mem hx)
    · rw [if_neg hc, if_pos (by simpa using hc), eraseId_filter i l h.2]

theorem not_removed (k : Int) (l : List Ace) (h : (Acl.removeByAceid k l).1 ≠ true) : (Acl.removeByAceid k l).2 = l := by
  unfold Acl.removeByAceid at h ⊢
  split at h
  · exact absurd rfl h
  · rfl

theorem toInt32_wrap (n : Int) : Sec.toInt32 ((BitVec.ofInt 64 n).toNat : Int) = Sec.toInt32 n := by
  unfold Sec.toInt32
  congr 1
  apply BitVec.eq_of_toNat_eq
  simp only [BitVec.toNat_ofInt]
  omega

end Verif.ObtDel
