import Verif.ObtDel.Lemmas

/-!
C145: Deleting an access control entry or a credential of a device with an
onboarding tool.
-/

namespace Verif.ObtDel

open Verif.Acl (Ace AclState Dos)
open Verif.Cred (Cred)

/-! ### A device -/

/-- A credential 7 and one 8. -/
def exCred (i : Int) : Cred := ⟨0, i, 1, 0, [1], ⟨[2], 1⟩, ⟨[], 0⟩, [], [], [], false, false⟩

/-- Entries 3 and 0. -/
def exAce (i : Int) : Ace := ⟨i, .uuid [1], 31#16, none, []⟩

/-- A device with them. -/
def exDev (dos : Dos) : Dev := ⟨dos, ⟨[exAce 3, exAce 0], [9]⟩, [exCred 7, exCred 8]⟩

/-- A device that is provisioned deletes exactly the access control entry with the id
asked for, if it has one that is not 0; the rest of the device stays as it was. -/
theorem ace_gone (n : Int) (d : Dev) (hd : d.dos ≠ .rfnop) (hn : Sec.toInt32 n = n) (hz : n ≠ 0)
    (hu : (d.acl.aces.map (·.aceid)).Nodup) (he : ∃ a ∈ d.acl.aces, a.aceid = n) :
    delete .ace n d =
      (deletedCode, { d with acl := { d.acl with aces := d.acl.aces.filter fun a => decide (a.aceid ≠ n) } }) := by
  have hs := Acl.removeByAceid_spec n d.acl.aces hu
  simp only [delete, deleteAce, Acl.deleteAcl, if_neg hd, toInt32_wrap, hn]
  rw [if_pos hz]
  dsimp only
  rw [if_pos (hs.2.2 he), hs.1]

example : delete .ace 3 (exDev .rfpro) = (deletedCode, { exDev .rfpro with acl := ⟨[exAce 0], [9]⟩ }) :=
  ace_gone 3 (exDev .rfpro) (by decide) (by decide) (by decide) (by decide) ⟨exAce 3, by decide, rfl⟩

/-- The same for a credential. -/
theorem cred_gone (n : Int) (d : Dev) (hd : d.dos ≠ .rfnop) (hn : 0 ≤ n ∧ n ≤ intMax)
    (hu : (d.creds.map (·.id)).Nodup) (he : ∃ c ∈ d.creds, c.id = n) :
    delete .cred n d = (deletedCode, { d with creds := d.creds.filter fun c => c.id != n }) := by
  simp only [delete, deleteCred, if_neg hd]
  rw [if_neg (by omega)]
  split
  · next h =>
    obtain ⟨c, hc, hi⟩ := he
    have := List.find?_eq_none.1 h c hc
    exact absurd hi (by simpa using this)
  · rw [eraseId_filter n _ hu]

example : delete .cred 7 (exDev .rfpro) = (deletedCode, { exDev .rfpro with creds := [exCred 8] }) :=
  cred_gone 7 (exDev .rfpro) (by decide) (by decide) (by decide) ⟨exCred 7, by decide, rfl⟩

/-- A device in normal operation deletes nothing, and any device that does not answer
that it deleted something has not. -/
theorem refused (k : Kind) (n : Int) (d : Dev) :
    (d.dos = .rfnop → delete k n d = (forbidden, d)) ∧ ((delete k n d).1 ≠ deletedCode → (delete k n d).2 = d) := by
  constructor
  · intro h
    cases k <;> simp only [delete, deleteAce, deleteCred, if_pos h]
  · cases k
    · simp only [delete, deleteAce, Acl.deleteAcl]
      split
      · intro _; rfl
      · split
        · dsimp only
          intro q
          rw [not_removed _ _ fun h => q (if_pos h)]
        · intro _; rfl
    · simp only [delete, deleteCred]
      split
      · intro _; rfl
      · split
        · intro _; rfl
        · split
          · intro _; rfl
          · intro q; exact absurd rfl q

example : delete .cred 9 (exDev .rfpro) = (notFound, exDev .rfpro) := rfl

/-! ### The sequence -/

/-- What reaches a device changes no other one; a switch changes nothing of the device
but its state; an answer, or its absence, changes no device. -/
theorem only_this (i : Nat) (ok : Bool) (s : St) {c : Ctx} (h : find i s = some c) :
    (∀ j, j ≠ c.dev → (serve i ok s).devs j = s.devs j) ∧
      (c.stage ≠ .del → (serve i ok s).devs c.dev = s.devs c.dev ∨
        ∃ t, (serve i ok s).devs c.dev = { s.devs c.dev with dos := t }) ∧
      (∀ code next, (deliver i next s).devs = s.devs ∧ (fail i code next s).devs = s.devs) := by
  have hh : ∀ (x : Ctx) code next, (handle x code next s).devs = s.devs := by
    intro x code next
    unfold handle finish
    repeat' split
    all_goals rfl
  refine ⟨?_, ?_, ?_⟩
  · intro j hj
    unfold serve
    rw [h]
    dsimp only
    repeat' split
    all_goals first | rfl | (dsimp only [put]; rw [if_neg hj])
  · intro hs
    unfold serve
    rw [h]
    dsimp only
    split
    · exact .inl rfl
    · split
      · exact .inl rfl
      · split
        · exact .inr ⟨.rfpro, by simp [put, switch]⟩
        · next q => exact absurd q hs
        · exact .inr ⟨.rfnop, by simp [put, switch]⟩
  · intro code next
    constructor
    · unfold deliver
      repeat' split
      all_goals first | rfl | exact hh _ _ _
    · unfold fail
      repeat' split
      all_goals first | rfl | exact hh _ _ _

/-- The deletion is carried out on the device, and with the id, that the application
gave, and only the deletion is. -/
theorem asked (k : Kind) (d : Nat) (n : Int) (devs : Nat → Dev) (ops : List Op) (hf : ∀ o ∈ ops, o.Fair) (s : St)
    (hs : s = run ops { devs := devs }) :
    find s.made (start k d n true s).2 = some ⟨s.made, d, k, n, .toRfpro, none⟩ ∧
      ∀ c, find c.id s = some c → c.stage = .del → c.reply = none →
        (serve c.id true s).devs c.dev = (delete c.kind c.num (s.devs c.dev)).2 := by
  have h : Inv s := by rw [hs]; exact inv_run ops _ (inv_init devs) hf
  constructor
  · have hn : s.ctxs.find? (fun c => c.id == s.made) = none := by
      rw [List.find?_eq_none]
      intro x hx q
      have := h.lt x.id (List.mem_append_left _ (List.mem_map_of_mem hx))
      simp only [beq_iff_eq] at q
      omega
    simp [start, find, List.find?_append, hn]
  · intro c hc hs hr
    unfold serve
    rw [hc]
    simp only [hr, hs, Bool.not_true, Bool.false_eq_true, if_false, put, if_true]

example : (find 0 (run [.start .cred 4 7 true, .serve 0 true, .deliver 0 true] { devs := fun _ => exDev .rfnop })) =
    some ⟨0, 4, .cred, 7, .del, none⟩ := rfl

/-- Requests do not disturb each other: what happens to one, and the beginning of
another one, leaves every other one as it is. -/
theorem apart (i j : Nat) (h : j ≠ i) (s : St) (ok next : Bool) (code : Nat) :
    find j (serve i ok s) = find j s ∧ find j (deliver i next s) = find j s ∧ find j (fail i code next s) = find j s ∧
      ∀ k d n c, find j s = some c → find j (start k d n ok s).2 = some c := by
  refine ⟨?_, ?_, ?_, ?_⟩
  · unfold serve
    split
    · rfl
    · next c hc =>
      have hj : j ≠ c.id := by rw [(find_mem hc).2]; exact h
      repeat' split
      all_goals first | rfl | exact find_replace_ne hj
  · unfold deliver
    split
    · rfl
    · next c hc =>
      split
      · rfl
      · exact find_handle_ne (by rw [(find_mem hc).2]; exact h) _ _ _
  · unfold fail
    split
    · rfl
    · next c hc => exact find_handle_ne (by rw [(find_mem hc).2]; exact h) _ _ _
  · intro k d n c hc
    unfold start
    split
    · exact hc
    · unfold find at hc ⊢
      rw [List.find?_append, hc]
      rfl

example : find 0 (run [.start .cred 4 7 true, .start .ace 5 3 true, .serve 1 true, .deliver 1 true]
    { devs := fun _ => exDev .rfnop }) = some ⟨0, 4, .cred, 7, .toRfpro, none⟩ := rfl

/-- A request that is refused starts nothing. -/
theorem not_started (k : Kind) (d : Nat) (n : Int) (s : St) : start k d n false s = (false, s) := rfl

/-- The callback of a request is made at most once, and only of a request that was
begun. -/
theorem once (devs : Nat → Dev) (ops : List Op) (hf : ∀ o ∈ ops, o.Fair) :
    (toldIds (run ops { devs := devs }).log).Nodup ∧
      ∀ i ∈ toldIds (run ops { devs := devs }).log, i < (run ops { devs := devs }).made ∧
        find i (run ops { devs := devs }) = none := by
  have h := inv_run ops _ (inv_init devs) hf
  refine ⟨(List.nodup_append.1 h.ids).2.1, fun i hi => ⟨h.lt i (List.mem_append_right _ hi), ?_⟩⟩
  unfold find
  rw [List.find?_eq_none]
  intro x hx q
  simp only [beq_iff_eq] at q
  exact (List.nodup_append.1 h.ids).2.2 x.id (List.mem_map_of_mem hx) i hi q

/-- When the application is told that its request is done, the device it named has
deleted what it named for that request, and was switched to normal operation after
that. Missing: requests of the tool that time out (`timeout_false`). -/
theorem truthful_partial (devs : Nat → Dev) (ops : List Op) (hf : ∀ o ∈ ops, o.Fair) (a b : List Ev) (i : Nat)
    (h : (run ops { devs := devs }).log = a ++ Ev.told i true :: b) :
    ∃ d k n, Ev.started i d k n ∈ a ∧ ∃ x y, a = x ++ Ev.deleted i d k n :: y ∧ Ev.switched i d .rfnop ∈ y :=
  (inv_run ops _ (inv_init devs) hf).truth a b i h

/-- The events of a request without losses. -/
def all (i : Nat) : List Op :=
  [.serve i true, .deliver i true, .serve i true, .deliver i true, .serve i true, .deliver i true]

example : (run (.start .cred 4 7 true :: all 0) { devs := fun _ => exDev .rfnop }).log =
    [.started 0 4 .cred 7, .switched 0 4 .rfpro, .deleted 0 4 .cred 7, .switched 0 4 .rfnop, .told 0 true] := rfl

/-- One request and its answer. -/
theorem round {s : St} {i : Nat} {c : Ctx} (h : find i s = some c) (ok next : Bool) :
    find i (deliver i next (serve i ok s)) = none ∨
      ∃ c', find i (deliver i next (serve i ok s)) = some c' ∧ rank c'.stage < rank c.stage := by
  obtain ⟨_, rfl⟩ := find_mem h
  obtain ⟨c', r, hf, hi, hs, hr⟩ := serve_find h ok
  have hd : deliver c.id next (serve c.id ok s) = handle c' r next (serve c.id ok s) := by
    unfold deliver
    rw [hf]
    dsimp only
    rw [hr]
  rw [hd, ← hi]
  rw [← hi] at hf
  rw [← hs]
  rcases handle_find hf r next with q | ⟨x, hx, hk, _⟩
  · exact .inl q
  · exact .inr ⟨x, hx, hk⟩

theorem gone_stays {s : St} {i : Nat} (h : find i s = none) (ok next : Bool) :
    find i (deliver i next (serve i ok s)) = none := by
  have hs : serve i ok s = s := by unfold serve; rw [h]
  have hd : deliver i next s = s := by unfold deliver; rw [h]
  rw [hs, hd]
  exact h

/-- However a device answers, and whether or not the tool can go on, a request ends
after three answers; a request that has no answer can be ended by a failure at any
time, and the application is told that it failed. -/
theorem ends (s : St) (i : Nat) (o1 n1 o2 n2 o3 n3 : Bool) :
    find i (deliver i n3 (serve i o3 (deliver i n2 (serve i o2 (deliver i n1 (serve i o1 s)))))) = none ∧
      ∀ c code next, find i s = some c → badRequest ≤ code → code ≠ requestTimeout →
        fail i code next s = { s with ctxs := s.ctxs.filter fun x => x.id != i, log := s.log ++ [.told i false] } := by
  constructor
  · cases h0 : find i s with
    | none => exact gone_stays (gone_stays (gone_stays h0 _ _) _ _) _ _
    | some c0 =>
      rcases round h0 o1 n1 with h1 | ⟨c1, h1, k1⟩
      · exact gone_stays (gone_stays h1 _ _) _ _
      · rcases round h1 o2 n2 with h2 | ⟨c2, h2, k2⟩
        · exact gone_stays h2 _ _
        · rcases round h2 o3 n3 with h3 | ⟨c3, h3, k3⟩
          · exact h3
          · have : rank c0.stage ≤ 2 := by cases c0.stage <;> decide
            omega
  · intro c code next h hb ht
    obtain ⟨_, rfl⟩ := find_mem h
    have hso : switchOk code = false := by simp [switchOk, hb, ht]
    unfold fail
    rw [h]
    unfold handle
    dsimp only
    split
    · rw [hso]; rfl
    · rw [if_pos hb]; rfl
    · rw [hso]; rfl

example : find 0 (run [.start .cred 4 7 true, .serve 0 false] { devs := fun _ => exDev .rfnop }) =
    some ⟨0, 4, .cred, 7, .toRfpro, some forbidden⟩ := rfl

/-- A request that nothing disturbs succeeds: the entry or credential is gone, the
device is in normal operation and its other contents are as they were. -/
theorem works (k : Kind) (d : Nat) (n : Int) (devs : Nat → Dev) (x : Dev)
    (hx : delete k n { devs d with dos := .rfpro } = (deletedCode, x)) :
    (run (.start k d n true :: all 0) { devs := devs }).log =
        [.started 0 d k n, .switched 0 d .rfpro, .deleted 0 d k n, .switched 0 d .rfnop, .told 0 true] ∧
      (run (.start k d n true :: all 0) { devs := devs }).devs d = { x with dos := .rfnop } ∧
      (run (.start k d n true :: all 0) { devs := devs }).ctxs = [] := by
  simp [run, all, step, start, serve, deliver, handle, find, replace, finish, switch, put, hx, switchOk, changed,
    badRequest, requestTimeout, deletedCode]

example : (run (.start .ace 4 3 true :: all 0) { devs := fun _ => exDev .rfnop }).devs 4 =
    { exDev .rfnop with acl := ⟨[exAce 0], [9]⟩ } := rfl

/-! ### What is not so -/

/-- An access control entry with the id 0 can be there but cannot be deleted by the
tool: the device takes 0 for an id it cannot read (security/oc_acl.c:517-525). -/
theorem zero_false : (delete .ace 0 (exDev .rfpro)).1 = notFound ∧ exAce 0 ∈ (exDev .rfpro).acl.aces :=
  ⟨rfl, by decide⟩

/-- When there is nothing to delete the tool gives up and leaves a device that was in
normal operation in the state for provisioning, in which it does not serve clients
(security/oc_obt.c:3064-3072). -/
theorem left_false : ∃ ops, (∀ o ∈ ops, o.Fair) ∧
    (run ops { devs := fun _ => exDev .rfnop }).log =
      [.started 0 4 .cred 9, .switched 0 4 .rfpro, .told 0 false] ∧
    ((run ops { devs := fun _ => exDev .rfnop }).devs 4).dos = .rfpro :=
  ⟨[.start .cred 4 9 true, .serve 0 true, .deliver 0 true, .serve 0 true, .deliver 0 true],
    (by intro o ho; simp only [List.mem_cons, List.not_mem_nil, or_false] at ho; rcases ho with rfl | rfl | rfl | rfl | rfl <;> trivial),
    rfl, rfl⟩

/-- When an answer is lost the application is told that its request failed though the
credential is gone. -/
theorem lost_false : ∃ ops, (∀ o ∈ ops, o.Fair) ∧
    (run ops { devs := fun _ => exDev .rfnop }).log =
      [.started 0 4 .cred 7, .switched 0 4 .rfpro, .deleted 0 4 .cred 7, .told 0 false] ∧
    ((run ops { devs := fun _ => exDev .rfnop }).devs 4).creds = [exCred 8] :=
  ⟨[.start .cred 4 7 true, .serve 0 true, .deliver 0 true, .serve 0 true, .fail 0 25 true],
    (by intro o ho; simp only [List.mem_cons, List.not_mem_nil, or_false] at ho
        rcases ho with rfl | rfl | rfl | rfl | rfl <;> first | trivial | exact ⟨by decide, by decide⟩),
    rfl, rfl⟩

/-- The end of a request by its timeout counts as an answer that the state was changed
(security/oc_obt.c:844): success can be told though the device never left the state
for provisioning. -/
theorem timeout_false : ∃ ops,
    (run ops { devs := fun _ => exDev .rfnop }).log =
      [.started 0 4 .cred 7, .switched 0 4 .rfpro, .deleted 0 4 .cred 7, .told 0 true] ∧
    ((run ops { devs := fun _ => exDev .rfnop }).devs 4).dos = .rfpro :=
  ⟨[.start .cred 4 7 true, .serve 0 true, .deliver 0 true, .serve 0 true, .deliver 0 true, .fail 0 requestTimeout true],
    rfl, rfl⟩

end Verif.ObtDel
