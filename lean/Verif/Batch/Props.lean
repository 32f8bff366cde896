/-
C138: observers of the discovery resource with the batch interface are told of
every resource that appears, changes or goes, once, and only of what they may
read; and what is pending never refers to what is freed.
-/
import Verif.Batch.Told

namespace Verif.Batch

/-! ### C138 — nothing pending refers to what is gone -/

/-- Whatever fails, in any history in which changes are told of listed resources
and uris have at most 256 bytes, no step does anything undefined. -/
theorem defined {env : Env} {s : St} (h : Reach env safe s) {l : Luck} {op : Op} (ha : safe s l op) :
    ∃ s', step env s l op = .ok s' := by
  obtain ⟨s', h1, _⟩ := wf_step (env := env) (reach_wf h) ha
  exact ⟨s', h1⟩

/-- What is pending is for a registered observer, and about a resource that is
there and listed, or the removal of one. -/
theorem pending_valid {env : Env} {s : St} (h : Reach env safe s) {e : Ent} (he : e ∈ s.queue) :
    (∃ o ∈ s.obs, o.id = e.obs) ∧ ∀ i, e.tgt = .res i → ∃ r ∈ s.res, r.id = i ∧ r.listed = true := by
  obtain ⟨h1, h2⟩ := (reach_wf h).ents e he
  refine ⟨h1, fun i hi => ?_⟩
  rw [hi] at h2
  exact h2

/-- The same thing is never pending twice for an observer. -/
theorem pending_once {env : Env} {s : St} (h : Reach env safe s) : s.queue.Nodup := (reach_wf h).nd

/-- After a resource is deleted or an observer is gone, nothing about it is
pending, whatever fails. -/
theorem gone_not_pending {env : Env} {s s' : St} (h : Reach env safe s) {l : Luck} {i : Nat} :
    (step env s l (.delete i) = .ok s' → ∀ e ∈ s'.queue, e.tgt ≠ .res i) ∧
    (step env s l (.cancel i) = .ok s' → ∀ e ∈ s'.queue, e.obs ≠ i) := by
  constructor
  · intro hs e he hh
    have hr : Reach env safe s' := .step h (show safe s l (.delete i) from trivial) hs
    obtain ⟨r, hr', hri, _⟩ := (pending_valid hr he).2 i hh
    unfold step at hs
    dsimp only at hs
    cases hf : s.res.find? (fun r => r.id == i) with
    | none =>
      rw [hf] at hs; injection hs with hs; subst hs
      rw [List.find?_eq_none] at hf
      exact absurd (by simpa using hri) (hf r hr')
    | some x =>
      rw [hf] at hs; injection hs with hs; subst hs
      have hx := (find_res (reach_wf h) hf).2
      unfold deleteRes at hr'
      have := (List.mem_filter.1 hr').2
      simp [hri, hx] at this
  · intro hs e he hh
    unfold step at hs; injection hs with hs; subst hs
    have := (List.mem_filter.1 he).2
    simp [hh] at this

/-! ### C138 — what is told -/

/-- Whatever fails, everything told in a step is told to a registered observer
that may read the resource; and what is told of a resource that is there is its
present state, and only if the batch representation shows it to this client. -/
theorem told_true {env : Env} {s s' : St} (h : Reach env safe s) {l : Luck} {op : Op}
    (hs : step env s l op = .ok s') :
    ∃ its, s'.log = s.log ++ its ∧ ∀ i ∈ its, ∃ o ∈ s'.obs, o.id = i.obs ∧ env.acl i.uri o.ep = true ∧
      ∀ w, i.what = some w → env.shown i.uri o.ep = true ∧
        ∃ r ∈ s'.res, r.uri = i.uri ∧ r.listed = true ∧ w = (r.id, r.ver) :=
  step_told (reach_wf h) (reach_gone h) hs

/-- In a history without a failure: an observer for which nothing is pending
knows, of every uri it may see, what is there now. -/
theorem up_to_date {env : Env} {s : St} (h : Reach env good s) {o : Obs} (ho : o ∈ s.obs)
    (hq : ∀ e ∈ s.queue, e.obs ≠ o.id) {u : Bytes} (hacl : env.acl u o.ep = true)
    (hsh : env.shown u o.ep = true) : view s.log o.id u = cur s u := by
  refine ((reach_inv h).sync o ho u hacl hsh).2 ?_
  unfold pendLast
  rw [List.getLast?_eq_none_iff, List.filter_eq_nil_iff]
  intro e he hp
  simp only [Bool.and_eq_true, beq_iff_eq] at hp
  exact hq e he hp.1

/-- In a history without a failure nothing pending is forgotten: it will be
processed without another change, or its observer is receiving a transfer whose
end will have it processed. -/
theorem never_stalls {env : Env} {s : St} (h : Reach env good s) {e : Ent} (he : e ∈ s.queue) :
    s.sched = true ∨ ∃ o ∈ s.obs, o.id = e.obs ∧ (∃ x ∈ s.xfers, x.ep = o.ep) ∧
      ∀ s' l, step env s l (.xferEnd o.ep) = .ok s' → s'.sched = true := by
  have hi := reach_inv h
  rcases hi.live with hl | hl
  · exact Or.inl hl
  · obtain ⟨o, ho, hoe, hb⟩ := hl e he
    unfold busy at hb
    rw [List.any_eq_true] at hb
    obtain ⟨x, hx, hxe⟩ := hb
    refine Or.inr ⟨o, ho, hoe, ⟨x, hx, by simpa using hxe⟩, fun s' l hs => ?_⟩
    unfold step at hs
    injection hs with hs
    subst hs
    have : s.xfers.any (fun x => x.ep == o.ep && x.cb) = true := by
      rw [List.any_eq_true]
      exact ⟨x, hx, by rw [hxe, hi.cb x hx]; rfl⟩
    unfold xferEnd
    dsimp only
    rw [this]
    simp

/-- After a history without a failure, once no transfer runs, one turn of the
event loop leaves nothing pending, and every observer knows of every uri it may
see what is there. -/
theorem settles {env : Env} {s s' : St} (h : Reach env good s) (hx : s.xfers = []) {l : Luck} (hl : lucky l)
    (hb : ∀ i, l.big i = false) (hs : step env s l .tick = .ok s') :
    s'.queue = [] ∧ ∀ o ∈ s'.obs, ∀ u, env.acl u o.ep = true → env.shown u o.ep = true →
      view s'.log o.id u = cur s' u := by
  have hr : Reach env good s' := .step h (show good s l .tick from ⟨trivial, hl, trivial⟩) hs
  obtain ⟨hi, hw, hobs, hres⟩ := inv_tick hl (reach_inv h) hs
  have hx' : s'.xfers = [] := by
    unfold step at hs
    dsimp only at hs
    split at hs
    · unfold process at hs
      split at hs
      · injection hs with hs; subst hs; exact hx
      · exact (proc_small hb _ (wf_sched (reach_inv h).wf false) hs).trans hx
    · injection hs with hs; subst hs; exact hx
  have hwait : Waiting s' := by
    by_cases hsc : s.sched = true
    · exact (hw hsc).1
    · have : s' = s := by
        unfold step at hs
        dsimp only at hs
        rw [if_neg hsc] at hs
        injection hs with hs
        exact hs.symm
      rw [this]
      rcases (reach_inv h).live with hl' | hl'
      · exact absurd hl' hsc
      · exact hl'
  have hq : s'.queue = [] := by
    rw [List.eq_nil_iff_forall_not_mem]
    intro e he
    obtain ⟨o, _, _, hb⟩ := hwait e he
    rw [hx'] at hb
    simp [busy] at hb
  refine ⟨hq, fun o ho u hacl hsh => up_to_date hr ho ?_ hacl hsh⟩
  intro e he
  rw [hq] at he
  cases he

/-! ### Examples -/

/-- A name for the examples. -/
def uA : Bytes := [0x2f, 0x61]
/-- Another. -/
def uB : Bytes := [0x2f, 0x62]

/-- A client observes; two resources are added. -/
def base : List (Luck × Op) :=
  [(fair, .register 7), (fair, .create uA), (fair, .create uB), (fair, .add 0), (fair, .add 1)]

/-- The state of a history, for examples. -/
def after (env : Env) (h : List (Luck × Op)) : St :=
  match run env init h with
  | .ok s => s
  | .ub => init

/-- A history whose steps are admitted reaches its state. -/
theorem reach_run {env : Env} {p : St → Luck → Op → Prop} : ∀ (h : List (Luck × Op)) {s t : St}, Reach env p s →
    run env s h = .ok t → (∀ (k : Nat) (x : Luck × Op) (a : St), h[k]? = some x →
      run env s (h.take k) = .ok a → p a x.1 x.2) → Reach env p t := by
  intro h
  induction h with
  | nil => intro s t hr ht _; injection ht with ht; exact ht ▸ hr
  | cons x h ih =>
    intro s t hr ht hp
    obtain ⟨l, op⟩ := x
    have h0 := hp 0 (l, op) s rfl rfl
    unfold run at ht
    cases hs : step env s l op with
    | ub => rw [hs] at ht; cases ht
    | ok s1 =>
      rw [hs] at ht
      refine ih (.step hr h0 hs) ht (fun k x a hk ha => hp (k + 1) x a hk ?_)
      rw [List.take_succ_cons]
      unfold run
      rw [hs]
      exact ha

example : lucky fair := by simp [lucky, fair]

/-- The base history meets `good` (and so `safe`), with two entries pending. -/
theorem base_good : Reach openEnv good (after openEnv base) := by
  refine reach_run base .init rfl ?_
  intro k x a hk ha
  have hl : lucky fair := by simp [lucky, fair]
  match k with
  | 0 => injection hk with hk; subst hk; exact ⟨trivial, hl, trivial⟩
  | 1 => injection hk with hk; subst hk; exact ⟨by simp [safe, uA], hl, by simp [uA]⟩
  | 2 => injection hk with hk; subst hk; exact ⟨by simp [safe, uB], hl, by simp [uB]⟩
  | 3 => injection hk with hk; subst hk; exact ⟨trivial, hl, trivial⟩
  | 4 => injection hk with hk; subst hk; exact ⟨trivial, hl, trivial⟩
  | n + 5 => cases hk

example : (after openEnv base).queue = [⟨0, .res 0⟩, ⟨0, .res 1⟩] ∧ (after openEnv base).sched = true ∧
    (after openEnv base).xfers = [] := by decide

/-- The turn of the event loop tells both in one payload. -/
example : (after openEnv (base ++ [(fair, .tick)])).log = [⟨0, uA, some (0, 0)⟩, ⟨0, uB, some (1, 0)⟩] ∧
    (after openEnv (base ++ [(fair, .tick)])).queue = [] := by decide

/-- Two changes before the turn are told once, with the last state. -/
example : (after openEnv (base ++ [(fair, .tick), (fair, .change 0), (fair, .change 0), (fair, .tick)])).log =
    [⟨0, uA, some (0, 0)⟩, ⟨0, uB, some (1, 0)⟩, ⟨0, uA, some (0, 2)⟩] := by decide

/-- A removal. -/
example : (after openEnv (base ++ [(fair, .tick), (fair, .delete 0), (fair, .tick)])).log =
    [⟨0, uA, some (0, 0)⟩, ⟨0, uB, some (1, 0)⟩, ⟨0, uA, none⟩] := by decide

/-- A change during a transfer waits for its end. -/
example : (after openEnv (base ++ [({ fair with big := fun _ => true }, .tick), (fair, .change 0), (fair, .tick)])).queue =
      [⟨0, .res 0⟩] ∧
    (after openEnv (base ++ [({ fair with big := fun _ => true }, .tick), (fair, .change 0), (fair, .tick),
      (fair, .xferEnd 7), (fair, .tick)])).log =
      [⟨0, uA, some (0, 0)⟩, ⟨0, uB, some (1, 0)⟩, ⟨0, uA, some (0, 1)⟩] := by decide

/-! ### C138 — what does not hold -/

/-- A resource that was never added, of which a change was told with
`oc_notify_observers`, is deleted without its pending entry being removed
(`oc_notify_resource_removed` is called only for listed resources); the next turn
of the event loop reads freed memory. -/
theorem unlisted_ub : run openEnv init
    [(fair, .register 7), (fair, .create uA), (fair, .change 0), (fair, .delete 0), (fair, .tick)] = .ub := by decide

/-- Deleting a resource whose uri is longer than 256 bytes, while a client observes
with the batch interface, overflows the buffer of the notification. -/
theorem long_uri_ub : run openEnv init
    [(fair, .register 7), (fair, .create (List.replicate 257 0x61)), (fair, .add 0), (fair, .tick), (fair, .delete 0),
      (fair, .tick)] = .ub := by decide +kernel

/-- One byte less is fine. -/
example : run openEnv init
    [(fair, .register 7), (fair, .create (List.replicate 256 0x61)), (fair, .add 0), (fair, .tick), (fair, .delete 0),
      (fair, .tick)] ≠ .ub := by decide +kernel

/-- The claim that a change is told in the end fails when a client reads the batch
representation in blocks (the answer to its registration may be one): a change
during that transfer is pending, the turn of the event loop skips it, and the end
of the transfer does not cause another. -/
theorem stuck_behind_get_false :
    (let s := after openEnv (base ++ [(fair, .tick), (fair, .xferStart 7), (fair, .change 0), (fair, .tick),
      (fair, .xferEnd 7), (fair, .tick), (fair, .tick)])
     s.queue = [⟨0, .res 0⟩] ∧ s.sched = false ∧ s.xfers = [] ∧ view s.log 0 uA ≠ cur s uA) := by decide

/-- When the message cannot be allocated the loop is left: everything but the
first entry of this observer is lost for good. -/
theorem merged_lost_false :
    (let s := after openEnv (base ++ [({ fair with tx := fun _ => false }, .tick), (fair, .change 0), (fair, .tick)])
     s.queue = [] ∧ view s.log 0 uB = none ∧ cur s uB = some (1, 0)) := by decide

/-- And what remains is not tried again until something else changes. -/
theorem not_retried_false :
    (let s := after openEnv (base ++ [({ fair with tx := fun _ => false }, .tick), (fair, .tick), (fair, .tick)])
     s.queue = [⟨0, .res 0⟩] ∧ s.sched = false ∧ s.xfers = [] ∧ view s.log 0 uA ≠ cur s uA) := by decide

/-- Changes that together do not fit in `OC_MAX_OBSERVE_SIZE` are dropped without
being told at all. -/
theorem too_large_lost_false :
    (let s := after openEnv (base ++ [({ fair with fits := fun _ => false }, .tick)])
     s.queue = [] ∧ view s.log 0 uA = none ∧ cur s uA = some (0, 0)) := by decide

/-- When the entry for one observer cannot be allocated, the entries already made
for the same change to other observers are not processed until something else
changes. -/
theorem failed_add_false :
    (let s := after openEnv [(fair, .register 7), (fair, .register 8), (fair, .create uA), (fair, .add 0), (fair, .tick),
      ({ fair with entry := fun i => i == 0 }, .change 0), (fair, .tick)]
     s.queue = [⟨0, .res 0⟩] ∧ s.sched = false ∧ view s.log 0 uA ≠ cur s uA) := by decide

/-- The removal of a resource that the batch representation never showed (for
example one that is not discoverable) is told with its uri to every observer that
may read it. -/
theorem hidden_removed_false :
    (after ⟨fun _ _ => true, fun _ _ => false⟩ (base ++ [(fair, .tick), (fair, .delete 0), (fair, .tick)])).log =
      [⟨0, uA, none⟩] := by decide

end Verif.Batch
