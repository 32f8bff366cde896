import Verif.Observe.Lemmas

/-!
C24 (registrations of observers) and C50 (sequence numbers of notifications).
-/

namespace Verif.Observe

variable {E : Type}

/-! ## Preconditions the callers establish -/

/-- A resource is added once; a registration names an existing resource by its
path and the resource has fewer than 255 observers; an existing resource is
deleted. -/
def Valid (s : St E) : Op E → Prop
  | .addResource r _ => s.uri r = none
  | .register _ url _ _ r =>
    (∃ u, s.uri r = some u ∧ stripSlash u = stripSlash url) ∧ countRes s.obs r < 255
  | .delete r => ∃ u, s.uri r = some u
  | _ => True

/-- Every event of the history meets its precondition. -/
def ValidRun (cmp : E → E → Bool) : St E → List (Op E) → Prop
  | _, [] => True
  | s, o :: r => Valid s o ∧ ∀ s', exec cmp s o = .ok s' → ValidRun cmp s' r

/-! ## Single events -/

theorem inv_init (cmp : E → E → Bool) : Inv cmp (init : St E) := by
  constructor <;> simp [init, countRes]

/-- The observers of a deleted resource are removed, all others kept. -/
theorem delete_spec (cmp : E → E → Bool) (s : St E) (h : Inv cmp s) (r : Nat) (u : List UInt8)
    (hu : s.uri r = some u) :
    ∃ s', exec cmp s (.delete r) = .ok s' ∧ Inv cmp s' ∧ s'.uri r = none ∧
      (∀ q, q ≠ r → s'.uri q = s.uri q) ∧ s'.obs = (s.obs.filter fun o => o.res ≠ r) ∧
      s'.g = s.g ∧ s'.log = s.log ∧ s'.nextId = s.nextId := by
  have key : ∃ s1, (if s.num r > 0 then
      (removeBy (matchResource r u) true s).bind fun x => .ok x.1 else .ok s) = .ok s1 ∧
      Inv cmp s1 ∧ Frame s s1 ∧ s1.obs = (s.obs.filter fun o => o.res ≠ r) := by
    by_cases hn : s.num r > 0
    · obtain ⟨s1, e1, i1, f1, o1⟩ := removeBy_all cmp
        (fun o => o.res == r && stripSlash u == stripSlash o.url) (matchResource r u) s h
        (fun _ _ _ _ => rfl)
      refine ⟨s1, by rw [if_pos hn, e1]; rfl, i1, f1, ?_⟩
      rw [o1]
      apply List.filter_congr
      intro o ho
      by_cases e : o.res = r
      · obtain ⟨u', h1, h2⟩ := h.live o ho
        rw [e, hu] at h1
        injection h1 with h1
        simp [e, h1, h2]
      · simp [e]
    · refine ⟨s, by rw [if_neg hn], h, .refl s, ?_⟩
      have hc := h.count r (by simp [hu])
      have : countRes s.obs r = 0 := by omega
      rw [countRes, List.countP_eq_zero] at this
      symm
      rw [List.filter_eq_self]
      intro o ho
      simpa using this o ho
  obtain ⟨s1, e1, i1, f1, o1⟩ := key
  refine ⟨{ s1 with uri := fun q => if q = r then none else s1.uri q }, ?_, ?_, by simp, ?_, o1, f1.g,
    f1.log, f1.nextId⟩
  · rw [exec, deleteResource, hu]
    dsimp only
    rw [e1]; rfl
  · refine ⟨i1.ids, i1.idLt, i1.uniq, ?_, ?_, i1.small⟩
    · intro o ho
      obtain ⟨v, h1, h2⟩ := i1.live o ho
      simp only at ho ⊢
      rw [o1, List.mem_filter] at ho
      have : o.res ≠ r := by simpa using ho.2
      exact ⟨v, by rw [if_neg this]; exact h1, h2⟩
    · intro q hq
      simp only at hq ⊢
      by_cases e : q = r
      · simp [e] at hq
      · rw [if_neg e] at hq; exact i1.count q hq
  · intro q hq
    simp only [if_neg hq, f1.uri]

/-- Registering: the former registrations of the same client for the same path and
interface are replaced by the new one. -/
theorem register_spec (cmp : E → E → Bool) (s : St E) (h : Inv cmp s) (ep : E) (url : List UInt8)
    (iface : Nat) (token : List UInt8) (r : Nat) (hv : Valid s (.register ep url iface token r)) :
    ∃ s', exec cmp s (.register ep url iface token r) = .ok s' ∧ Inv cmp s' ∧
      s'.uri = s.uri ∧ s'.g = s.g ∧ s'.log = s.log ∧ s'.nextId = s.nextId + 1 ∧
      s'.obs = (s.obs.filter fun q => !(cmp q.ep ep && q.url == url && q.iface == iface)) ++
        [⟨s.nextId, ep, url, iface, token, 0, r, s.g⟩] := by
  obtain ⟨⟨u, hu, hs⟩, hn⟩ := hv
  exact add_spec cmp s h ep url iface token r u hu hs hn

/-- A client that went away has no registration left; other clients keep theirs. -/
theorem byClient_spec (cmp : E → E → Bool) (s : St E) (h : Inv cmp s) (ep : E) :
    ∃ s', exec cmp s (.byClient ep) = .ok s' ∧ Inv cmp s' ∧ Frame s s' ∧
      s'.obs = s.obs.filter fun q => !cmp q.ep ep := by
  obtain ⟨s', e, i, f, o⟩ := removeBy_all cmp (fun q => cmp q.ep ep) (matchEndpoint cmp ep) s h
    (fun _ _ _ _ => rfl)
  exact ⟨s', by rw [exec, e]; rfl, i, f, o⟩

/-- Cancelling by token removes the first registration with this token. -/
theorem byToken_spec (cmp : E → E → Bool) (s : St E) (h : Inv cmp s) (ep : E) (t : List UInt8) :
    ∃ s', exec cmp s (.byToken ep t) = .ok s' ∧ Inv cmp s' ∧ Frame s s' ∧
      s'.obs = match s.obs.find? (fun o => cmp o.ep ep && o.token == t) with
        | none => s.obs
        | some o => s.obs.filter fun q => q.id ≠ o.id := by
  obtain ⟨s', k, e, i, f, o⟩ := removeBy_first cmp (fun o => cmp o.ep ep && o.token == t)
    (matchToken cmp ep t) s h (fun _ _ => rfl)
  exact ⟨s', by rw [exec, e]; rfl, i, f, o⟩

/-- A reset for the message id of the last notification removes that registration. -/
theorem byMid_spec (cmp : E → E → Bool) (s : St E) (h : Inv cmp s) (ep : E) (m : Nat) :
    ∃ s', exec cmp s (.byMid ep m) = .ok s' ∧ Inv cmp s' ∧ Frame s s' ∧
      s'.obs = match s.obs.find? (fun o => cmp o.ep ep && o.mid == m) with
        | none => s.obs
        | some o => s.obs.filter fun q => q.id ≠ o.id := by
  obtain ⟨s', k, e, i, f, o⟩ := removeBy_first cmp (fun o => cmp o.ep ep && o.mid == m)
    (matchMid cmp ep m) s h (fun _ _ => rfl)
  exact ⟨s', by rw [exec, e]; rfl, i, f, o⟩

/-- When the security state changes, exactly the observers without access lose
their registration. -/
theorem dosChange_spec (cmp : E → E → Bool) (s : St E) (h : Inv cmp s) (sel : E → Nat → Bool) :
    ∃ s', exec cmp s (.dosChange sel) = .ok s' ∧ Inv cmp s' ∧ Frame s s' ∧
      s'.obs = s.obs.filter fun q => !sel q.ep q.res := by
  obtain ⟨s', e, i, f, o⟩ := removeBy_all cmp (fun q => sel q.ep q.res) (matchDevice sel) s h (by
    intro s' hs o ho
    obtain ⟨u, hu, _⟩ := h.live o ho
    rw [matchDevice, hs, hu])
  exact ⟨s', by rw [exec, e]; rfl, i, f, o⟩

theorem freeAll_spec (cmp : E → E → Bool) (s : St E) (h : Inv cmp s) :
    ∃ s', exec cmp s .freeAll = .ok s' ∧ Inv cmp s' ∧ Frame s s' ∧ s'.obs = [] := by
  obtain ⟨s', e, i, f, o⟩ := removeBy_all cmp (fun _ => true) (fun _ _ => .ok true) s h
    (fun _ _ _ _ => rfl)
  exact ⟨s', by rw [exec, e]; rfl, i, f, by rw [o]; simp⟩

/-- Updating the message id and counter of observers. -/
theorem inv_map (cmp : E → E → Bool) (s : St E) (h : Inv cmp s) (f : Obs E → Obs E)
    (hf : ∀ o, (f o).id = o.id ∧ (f o).ep = o.ep ∧ (f o).url = o.url ∧ (f o).iface = o.iface ∧
      (f o).res = o.res) (g : Nat) (lg : List (Notif E)) :
    Inv cmp { s with obs := s.obs.map f, g := g, log := lg } := by
  have hc : ∀ r, countRes (s.obs.map f) r = countRes s.obs r := by
    intro r
    simp only [countRes, List.countP_map]
    apply List.countP_congr
    intro o _
    simp [(hf o).2.2.2.2]
  constructor
  · have : (s.obs.map f).map (·.id) = s.obs.map (·.id) := by
      simp only [List.map_map]
      apply List.map_congr_left
      intro o _; simp [(hf o).1]
    simp only [this]; exact h.ids
  · intro o ho
    obtain ⟨q, hq, rfl⟩ := List.mem_map.1 ho
    rw [(hf q).1]; exact h.idLt q hq
  · simp only [List.pairwise_map]
    refine h.uniq.imp ?_
    intro a b hab
    simp only [Same, (hf a).2.1, (hf b).2.1, (hf a).2.2.1, (hf b).2.2.1, (hf a).2.2.2.1, (hf b).2.2.2.1]
    exact hab
  · intro o ho
    obtain ⟨q, hq, rfl⟩ := List.mem_map.1 ho
    rw [(hf q).2.2.2.2, (hf q).2.2.1]; exact h.live q hq
  · intro r hr
    simp only [hc]; exact h.count r hr
  · intro r; simp only [hc]; exact h.small r

/-- A notification is sent with the counter of the observer, to this observer. -/
theorem notify_spec (cmp : E → E → Bool) (s : St E) (h : Inv cmp s) (id mid : Nat) :
    ∃ s', exec cmp s (.notify id mid) = .ok s' ∧ Inv cmp s' ∧
      ((s' = s ∧ ∀ o ∈ s.obs, o.id ≠ id) ∨
        ∃ o ∈ s.obs, o.id = id ∧ s' = { s with
          obs := s.obs.map fun q => if q.id = id then { q with ctr := inc q.ctr, mid := mid } else q
          g := inc s.g
          log := s.log ++ [⟨id, o.ep, o.url, o.iface, o.ctr⟩] }) := by
  rw [exec]
  cases hf : s.obs.find? fun o => o.id = id with
  | none =>
    refine ⟨s, rfl, h, .inl ⟨rfl, ?_⟩⟩
    intro o ho
    simpa using List.find?_eq_none.1 hf o ho
  | some o =>
    have hmem : o ∈ s.obs := List.mem_of_find?_eq_some hf
    have hid : o.id = id := by simpa using List.find?_some hf
    obtain ⟨u, hu, _⟩ := h.live o hmem
    have hc := h.count o.res (by simp [hu])
    have hpos : s.num o.res ≠ 0 := by
      have : 0 < countRes s.obs o.res := by
        rw [countRes, List.countP_pos_iff]; exact ⟨o, hmem, by simp⟩
      omega
    dsimp only
    rw [notifyOne, hu]
    dsimp only
    rw [if_pos hpos]
    refine ⟨_, rfl, ?_, .inr ⟨o, hmem, hid, by rw [hid]⟩⟩
    apply inv_map cmp s h
    intro q
    by_cases e : q.id = o.id <;> simp [e]

/-! ## All histories -/

theorem exec_ok (cmp : E → E → Bool) (s : St E) (h : Inv cmp s) (op : Op E) (hv : Valid s op) :
    ∃ s', exec cmp s op = .ok s' ∧ Inv cmp s' := by
  cases op with
  | addResource r u =>
    refine ⟨_, rfl, ?_⟩
    have hno : ∀ o ∈ s.obs, o.res ≠ r := by
      intro o ho e
      obtain ⟨v, h1, _⟩ := h.live o ho
      rw [e, hv] at h1; cases h1
    refine ⟨h.ids, h.idLt, h.uniq, ?_, ?_, h.small⟩
    · intro o ho
      obtain ⟨v, h1, h2⟩ := h.live o ho
      exact ⟨v, by simp only; rw [if_neg (hno o ho)]; exact h1, h2⟩
    · intro q hq
      simp only at hq ⊢
      by_cases e : q = r
      · rw [if_pos e]; symm
        rw [countRes, List.countP_eq_zero]
        intro o ho; have := hno o ho; simp; omega
      · rw [if_neg e] at hq ⊢; exact h.count q hq
  | register ep url iface token r =>
    obtain ⟨s', e, i, _⟩ := register_spec cmp s h ep url iface token r hv; exact ⟨s', e, i⟩
  | byClient ep => obtain ⟨s', e, i, _⟩ := byClient_spec cmp s h ep; exact ⟨s', e, i⟩
  | byToken ep t => obtain ⟨s', e, i, _⟩ := byToken_spec cmp s h ep t; exact ⟨s', e, i⟩
  | byMid ep m => obtain ⟨s', e, i, _⟩ := byMid_spec cmp s h ep m; exact ⟨s', e, i⟩
  | dosChange sel => obtain ⟨s', e, i, _⟩ := dosChange_spec cmp s h sel; exact ⟨s', e, i⟩
  | delete r =>
    obtain ⟨u, hu⟩ := hv
    obtain ⟨s', e, i, _⟩ := delete_spec cmp s h r u hu; exact ⟨s', e, i⟩
  | notify id mid => obtain ⟨s', e, i, _⟩ := notify_spec cmp s h id mid; exact ⟨s', e, i⟩
  | freeAll => obtain ⟨s', e, i, _⟩ := freeAll_spec cmp s h; exact ⟨s', e, i⟩

theorem run_ok (cmp : E → E → Bool) (ops : List (Op E)) (s : St E) (h : Inv cmp s)
    (hv : ValidRun cmp s ops) : ∃ s', run cmp s ops = .ok s' ∧ Inv cmp s' := by
  induction ops generalizing s with
  | nil => exact ⟨s, rfl, h⟩
  | cons o r ih =>
    obtain ⟨s1, e, i⟩ := exec_ok cmp s h o hv.1
    obtain ⟨s2, e2, i2⟩ := ih s1 i (hv.2 s1 e)
    exact ⟨s2, by rw [run, e]; exact e2, i2⟩

/-- C24. After any history of registrations, cancellations, resets, notifications,
security state changes and additions and deletions of resources (with at most 255
observers of a resource at a time): no access to a deleted resource happened, no
two registrations are of the same client for the same path and interface, every
registration is of an existing resource under its path, and the counter of every
existing resource is the number of its observers. -/
theorem registrations_partial (cmp : E → E → Bool) (ops : List (Op E)) (hv : ValidRun cmp init ops) :
    ∃ s, run cmp init ops = .ok s ∧
      (s.obs.Pairwise fun a b => ¬ (cmp a.ep b.ep = true ∧ a.url = b.url ∧ a.iface = b.iface)) ∧
      (∀ o ∈ s.obs, ∃ u, s.uri o.res = some u ∧ stripSlash u = stripSlash o.url) ∧
      (∀ r, (s.uri r).isSome → s.num r = (s.obs.filter fun o => o.res = r).length) := by
  obtain ⟨s, e, i⟩ := run_ok cmp ops init (inv_init cmp) hv
  refine ⟨s, e, i.uniq, i.live, ?_⟩
  intro r hr
  rw [i.count r hr, countRes, List.countP_eq_length_filter]
  congr 1

/-! ### A concrete history -/

def pathA : List UInt8 := [47, 97]
/-- Two clients observe a resource, the first one twice; one is notified and
resets; the resource is deleted. -/
def exOps : List (Op Nat) :=
  [.addResource 0 pathA, .register 1 [97] 0 [1] 0, .register 2 [97] 0 [2] 0,
   .register 1 [97] 0 [3] 0, .notify 2 77, .notify 1 78, .byMid 2 78]

theorem exOps_valid : ValidRun (fun a b : Nat => a == b) init exOps := by
  simp [ValidRun, exOps, Valid, exec, init, add, removeBy, removeLoop, matchData, removeOne, Out.bind,
    pathA, stripSlash, countRes, notifyOne, matchMid, inc, seqMax, seqStart]

example : ∃ s, run (fun a b : Nat => a == b) init exOps = .ok s ∧
    s.obs.map (fun o => (o.ep, o.token, o.ctr)) = [(1, [3], 3)] ∧ s.num 0 = 1 ∧
    s.log.map (fun n => (n.ep, n.seq)) = [(1, 2), (2, 2)] :=
  ⟨_, rfl, by decide, by decide, by decide⟩

end Verif.Observe
