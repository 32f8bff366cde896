import Verif.Push.Lemmas

/-!
Property theorems about notification selectors and push proxies.
-/

namespace Verif.Push

open Verif.Rep (b Bytes Val Rep)
open Spec

/-! ## What is pushed -/

open Classical in
/-- When the application tells that a resource changed, requests are sent for exactly the
selectors of this device that wait for an update, state no condition on interfaces, and
whose conditions on the path and the types hold, one each, in their order; these wait for
a response afterwards and the other selectors are as before.  Partial: a selector with a
condition on interfaces should be matched by it (`Spec.Selects`), see
`interfaces_never_match` and `interfaces_false`. -/
theorem pushed_partial (env : Env) (uri : Bytes) (dev : Nat) (ok : Nat → Bool) (s : St) (r : Rsc)
    (hr : findRsc env.rscs uri dev = some r) (hp : r.pushable = true) (hb : r.builder = true)
    (hok : ∀ n, n ∈ s.nss → ok n.id = true) :
    let hit := fun n : Ns => n.dev = dev ∧ n.state = .wfu ∧ n.pif = [] ∧ SelectsBy n.phref n.prt r uri
    let t := changed env uri dev true ok s
    t.sent = s.sent ++ (s.nss.filter fun n => decide (hit n)).map (fun n => ⟨n.id, r.uri, n.ep, n.path⟩) ∧
    t.inflight = s.inflight ++ (s.nss.filter fun n => decide (hit n)).map (·.id) ∧
    t.nss = s.nss.map fun n => if hit n then { n with state := .wfr } else n := by
  have hf : (s.nss.filter fun n => decide (Hit r uri dev n ∧ r.builder = true ∧ ok n.id = true)) =
      s.nss.filter fun n => decide (Hit r uri dev n) := by
    apply List.filter_congr
    intro n hn
    simp [hb, hok n hn]
  have hm : (s.nss.map fun n => if Hit r uri dev n ∧ r.builder = true ∧ ok n.id = true then { n with state := .wfr } else n) =
      s.nss.map fun n => if Hit r uri dev n then { n with state := .wfr } else n := by
    apply List.map_congr_left
    intro n hn
    simp [hb, hok n hn]
  have hnp : ¬ r.pushable = false := by rw [hp]; decide
  unfold changed
  simp only [hr]
  rw [if_neg hnp]
  simp only [loop_eq, hf, hm]
  have hd : (s.nss.filter fun n => decide (Hit r uri dev n)) = s.nss.filter fun n =>
      decide (n.dev = dev ∧ n.state = .wfu ∧ n.pif = [] ∧ SelectsBy n.phref n.prt r uri) := by
    apply List.filter_congr
    intro n _
    exact decide_eq_decide.mpr Iff.rfl
  refine ⟨by rw [hd], by rw [hd, List.map_map]; rfl, ?_⟩
  apply List.map_congr_left
  intro n _
  by_cases hh : Hit r uri dev n
  · rw [if_pos hh, if_pos (show n.dev = dev ∧ _ from hh)]
  · rw [if_neg hh, if_neg (show ¬ (n.dev = dev ∧ _) from hh)]

/-- Without such a resource, without a resource that may be pushed, or while the push
process does not run, a change does nothing. -/
theorem nothing_pushed (env : Env) (uri : Bytes) (dev : Nat) (running : Bool) (ok : Nat → Bool) (s : St)
    (h : running = false ∨ ∀ r, r ∈ env.rscs → r.dev = dev → r.uri = uri ∨ r.uri.drop 1 = uri → r.pushable = false) :
    changed env uri dev running ok s = s := by
  unfold changed
  split
  · rfl
  · rename_i r hr
    split
    · rfl
    · rename_i hp
      rcases h with rfl | h
      · simp [loop_stopped]
      · refine absurd ?_ hp
        unfold findRsc at hr
        split at hr
        · cases hr
        · rename_i c l
          have hm := List.mem_of_find?_eq_some hr
          have hq := List.find?_some hr
          simp only [Bool.and_eq_true, beq_iff_eq] at hq
          refine h r hm hq.2 ?_
          by_cases hc : c ≠ Ri.slash
          · rw [if_pos hc] at hq
            exact Or.inr hq.1.2
          · rw [if_neg hc] at hq
            exact Or.inl hq.1.2

/-- A selector that states a condition on interfaces is never matched, whatever the
interfaces are: the length of each name is read as if the array held byte strings, so no
name of an interface is ever recognised. -/
theorem interfaces_never_match (env : Env) (uri : Bytes) (dev : Nat) (running : Bool) (ok : Nat → Bool)
    (s : St) (hi : Ids s) (n : Ns) (hn : n ∈ s.nss) (hp : n.pif ≠ []) :
    n ∈ (changed env uri dev running ok s).nss ∧
      (changed env uri dev running ok s).sent.filter (·.id = n.id) = s.sent.filter (·.id = n.id) := by
  unfold changed
  split
  · exact ⟨hn, rfl⟩
  · rename_i r hr
    split
    · exact ⟨hn, rfl⟩
    · cases running with
      | false => simp [loop_stopped, hn]
      | true =>
        have hh : ¬ Hit r uri dev n := fun h => hp h.2.2.1
        simp only [loop_eq]
        refine ⟨List.mem_map.mpr ⟨n, hn, by simp [hh]⟩, ?_⟩
        rw [List.filter_append]
        suffices h : List.filter (fun x : Sent => decide (x.id = n.id)) (((s.nss.filter _)).map _) = [] by
          rw [h, List.append_nil]
        rw [List.filter_eq_nil_iff]
        intro x hx
        obtain ⟨m, hm, rfl⟩ := List.mem_map.mp hx
        rw [List.mem_filter] at hm
        have h2 := hm.2
        simp only [decide_eq_true_eq] at h2
        intro hc
        have hc : m.id = n.id := by simpa using hc
        have e1 := ns?_of_mem hi.1 hm.1
        rw [hc, ns?_of_mem hi.1 hn] at e1
        cases e1
        exact hh h2.1

/-! ## A small system for the examples -/

/-- The parser of the examples: `coap://x` has no path, `coap://x/t` has one. -/
def exParse (v : Bytes) : Option (Nat × Bytes) :=
  if v = b "coap://x/t" then some (1, b "/t")
  else if v = b "coap://x" then some (1, [])
  else none

/-- A light that may be pushed. -/
def light : Rsc := ⟨b "/light", 0, [b "r.light"], Ri.Iface.baseline.bit ||| Ri.Iface.rw.bit, true, true⟩

/-- The surroundings of the examples. -/
def exEnv : Env := ⟨exParse, [light]⟩

/-- The payload that makes a selector for the light, with its target. -/
def exRep : Rep := [(b "phref", .str (b "/light")), (b "pushtarget", .str (b "coap://x/t"))]

/-- A change of the light. -/
def exChange : Op := .changed (b "/light") 0 true (fun _ => true)

/-- The result of a history, when it is defined. -/
def after (os : List Op) : St :=
  match run exEnv {} os with
  | .ok s => s
  | .ub => {}

example : findRsc exEnv.rscs (b "/light") 0 = some light ∧
    (after [.create 0 exRep, exChange]).sent = [⟨0, b "/light", some 1, b "/t"⟩] ∧
    (after [.create 0 exRep, exChange]).nss.map (·.state) = [.wfr] := by decide

/-- Disagreement: the light has the interface `oic.if.rw` and the selector asks for just
that, but nothing is sent. -/
theorem interfaces_false :
    ∃ n, (after [.create 0 [(b "pif", .strs [b "oic.if.rw"]), (b "pushtarget", .str (b "coap://x/t"))]]).nss = [n] ∧
      n.state = .wfu ∧ Selects n light (b "/light") ∧
      (after [.create 0 [(b "pif", .strs [b "oic.if.rw"]), (b "pushtarget", .str (b "coap://x/t"))], exChange]).sent = [] := by
  refine ⟨{ id := 0, dev := 0, pif := [b "oic.if.rw"], ep := some 1, path := b "/t", state := .wfu },
    by decide, rfl, ⟨?_, ?_, ?_, ?_⟩, by decide⟩
  · intro p h; cases h
  · intro h; exact absurd rfl h
  · intro _; exact ⟨.rw, by decide, by decide⟩
  · exact Or.inr (Or.inr (by decide))

/-! ## The state of a push proxy -/

/-- How an UPDATE request changes the state.  The state stays or becomes "waiting for
update".  From "error" and "timeout" it changes only if the request says "waiting for
update".  In the other states a request that has a `state` is refused, a refused request
leaves the state, the state changes only if the request has a target, and it is "waiting
for update" after an accepted request with a target. -/
theorem state_rule (env : Env) (s : St) (hi : Ids s) (id : Nat) (rep : Rep) (n : Ns) (h : s.ns? id = some n) :
    ∃ n', (update env id rep s).ns? id = some n' ∧
      (n'.state = n.state ∨ n'.state = .wfu) ∧
      ((n.state = .err ∨ n.state = .tout) → n'.state ≠ n.state →
        (b "state", Val.str (b "waitingforupdate")) ∈ rep) ∧
      (n.state ≠ .err → n.state ≠ .tout →
        ((∃ v, (b "state", Val.str v) ∈ rep) → accepts env id rep s = false) ∧
        (accepts env id rep s = false → n'.state = n.state) ∧
        (n'.state ≠ n.state → ∃ v, v ≠ [] ∧ (b "pushtarget", Val.str v) ∈ rep) ∧
        (accepts env id rep s = true → (∃ v, v ≠ [] ∧ (b "pushtarget", Val.str v) ∈ rep) → n'.state = .wfu)) := by
  have hid := (ns?_some h).2
  have ha : accepts env id rep s = (setProps env n false rep).2 := by unfold accepts; rw [h]
  have hu : update env id rep s = s.setNs (setProps env n false rep).1 := by unfold update; rw [h]
  obtain ⟨h1, h2, h3, h4, h5⟩ := setProps_state env n false rep
  refine ⟨(setProps env n false rep).1, ?_, h1, h2, ?_⟩
  · rw [hu]
    exact setNs_ns? hi.1 h (by rw [(setProps_same env n false rep).1, hid])
  · intro a c
    have hs : ¬ Stopped n := fun h => h.elim a c
    rw [ha]
    refine ⟨h3 hs, h4 hs, fun hne => ?_, fun hacc ht => setProps_target env n false rep hacc hs (Or.inr ht)⟩
    rcases h5 hs hne with h | h
    · cases h
    · exact h

/-- In "error" and after a timeout, the request that says "waiting for update" makes the
selector push again. -/
theorem recovers (env : Env) (s : St) (hi : Ids s) (id : Nat) (n : Ns) (h : s.ns? id = some n)
    (hs : n.state = .err ∨ n.state = .tout) :
    accepts env id [(b "state", .str (b "waitingforupdate"))] s = true ∧
      (update env id [(b "state", .str (b "waitingforupdate"))] s).ns? id = some { n with state := .wfu } := by
  have hx : setProps env n false [(b "state", .str (b "waitingforupdate"))] = ({ n with state := .wfu }, true) := by
    have d : b "state" ≠ b "phref" ∧ b "state" ≠ b "pushtarget" ∧ b "state" ≠ b "pushqif" := by decide
    have hs' : ¬ (n.state ≠ .err ∧ n.state ≠ .tout) := fun hc => hs.elim hc.1 hc.2
    simp only [setProps, setOne, setStr, setState, if_neg d.1, if_neg d.2.1, if_neg d.2.2, if_neg hs', if_true,
      ne_eq, not_true_eq_false, if_false, settle, Bool.false_eq_true, false_and]
  refine ⟨by unfold accepts; rw [h]; simp only [hx], ?_⟩
  unfold update
  rw [h]
  simp only [hx]
  exact setNs_ns? hi.1 h (ns?_some h).2

example : ((after [.create 0 exRep, exChange, .respond 0 .timeout]).ns? 0).map (·.state) = some .tout ∧
    (after [.create 0 exRep, exChange, .respond 0 .timeout, exChange,
      .update 0 [(b "state", .str (b "waitingforupdate"))], exChange]).sent.length = 2 := by decide

/-- Disagreement: an UPDATE request that is refused changes the selector: the properties
before the one that is refused are kept. -/
theorem refused_update_false :
    accepts exEnv 0 [(b "phref", .str (b "/fan")), (b "pushtarget", .str (b "nonsense"))] (after [.create 0 exRep]) = false ∧
    ((update exEnv 0 [(b "phref", .str (b "/fan")), (b "pushtarget", .str (b "nonsense"))] (after [.create 0 exRep])).ns? 0).map
      (·.phref) = some (some (b "/fan")) ∧
    ((after [.create 0 exRep]).ns? 0).map (·.phref) = some (some (b "/light")) := by decide

/-! ## Where pushes go -/

/-- A request that neither clears the target nor names one without a path. -/
def Kept (env : Env) (rep : Rep) : Prop :=
  ∀ v, (b "pushtarget", Val.str v) ∈ rep → v ≠ [] ∧ ∀ ep, env.parse v ≠ some (ep, [])

/-- A history of such requests. -/
def KeptOp (env : Env) : Op → Prop
  | .update _ rep => Kept env rep
  | .create _ rep => Kept env rep
  | _ => True

/-- A selector has a target, if it is beyond provisioning. -/
def Aimed (n : Ns) : Prop := n.state ≠ .wfp → n.path ≠ [] ∧ n.ep ≠ none

theorem aimed_setOne {env : Env} {n : Ns} {u : Bool} {p : Bytes × Val}
    (hk : ∀ v, p = (b "pushtarget", Val.str v) → v ≠ [] ∧ ∀ ep, env.parse v ≠ some (ep, []))
    (ha : Aimed n ∧ (u = true → n.path ≠ [] ∧ n.ep ≠ none)) :
    (∀ n' u', setOne env n u p = .go n' u' → Aimed n' ∧ (u' = true → n'.path ≠ [] ∧ n'.ep ≠ none)) ∧
      ∀ n', setOne env n u p = .fail n' → Aimed n' := by
  obtain ⟨name, v⟩ := p
  obtain ⟨h1, h2⟩ := ha
  unfold Aimed at *
  unfold setOne
  cases v with
  | str v =>
    simp only [setStr, setTarget, setState]
    split
    · exact ⟨fun n' u' h => by cases h; exact ⟨h1, h2⟩, fun n' h => by cases h⟩
    · split
      · rename_i hn
        obtain ⟨hv, hp⟩ := hk v (by rw [hn])
        simp only [if_neg hv]
        split
        · exact ⟨fun n' u' h => (by cases h), fun n' h => (by cases h; exact h1)⟩
        · rename_i ep path he
          have hne : path ≠ [] := fun hc => hp ep (by rw [he, hc])
          simp only [if_neg hne]
          refine ⟨fun n' u' h => ?_, fun n' h => by cases h⟩
          cases h
          exact ⟨fun _ => ⟨hne, by simp⟩, fun _ => ⟨hne, by simp⟩⟩
      · split
        · exact ⟨fun n' u' h => by cases h; exact ⟨h1, h2⟩, fun n' h => by cases h⟩
        · split
          · split
            · exact ⟨fun n' u' h => (by cases h), fun n' h => (by cases h; exact h1)⟩
            · rename_i hs
              split
              · exact ⟨fun n' u' h => (by cases h), fun n' h => (by cases h; exact h1)⟩
              · refine ⟨fun n' u' h => ?_, fun n' h => by cases h⟩
                cases h
                have hw : n.state ≠ .wfp := fun hc => hs (by rw [hc]; decide)
                exact ⟨fun _ => h1 hw, h2⟩
          · exact ⟨fun n' u' h => by cases h; exact ⟨h1, h2⟩, fun n' h => by cases h⟩
  | strs l =>
    simp only [setStrs]
    refine ⟨fun n' u' h => ?_, fun n' h => ?_⟩
    · repeat' split at h
      all_goals cases h
      all_goals exact ⟨h1, h2⟩
    · repeat' split at h
      all_goals cases h
      all_goals exact h1
  | _ => exact ⟨fun n' u' h => by cases h; exact ⟨h1, h2⟩, fun n' h => by cases h⟩

theorem aimed_setProps {env : Env} (rep : Rep) {n : Ns} {u : Bool} (hk : Kept env rep)
    (ha : Aimed n) (hu : u = true → n.path ≠ [] ∧ n.ep ≠ none) : Aimed (setProps env n u rep).1 := by
  induction rep generalizing n u with
  | nil =>
    simp only [setProps, settle]
    split
    · rename_i h
      exact fun _ => hu h.1
    · exact ha
  | cons p rep ih =>
    rw [setProps]
    obtain ⟨h1, h2⟩ := aimed_setOne (p := p) (fun v hv => hk v (by rw [hv]; exact List.mem_cons_self)) ⟨ha, hu⟩
    cases hp : setOne env n u p with
    | fail n' => exact h2 n' hp
    | go n' u' =>
      obtain ⟨a, c⟩ := h1 n' u' hp
      exact ih (fun v hv => hk v (List.mem_cons_of_mem _ hv)) a c

/-- A selector that waits for a response was provisioned. -/
theorem flight_step {env : Env} {s s' : St} {o : Op} (hi : Ids s)
    (hf : ∀ n, n ∈ s.nss → n.id ∈ s.inflight → n.state ≠ .wfp) (h : step env s o = .ok s') :
    ∀ n, n ∈ s'.nss → n.id ∈ s'.inflight → n.state ≠ .wfp := by
  obtain ⟨h1, h2, h3⟩ := hi
  cases o with
  | create dev rep =>
    simp only [step, Out.ok.injEq, create] at h
    subst h
    split
    · intro n hn hm
      rcases List.mem_append.mp hn with hn | hn
      · exact hf n hn hm
      · rw [List.mem_singleton] at hn
        subst hn
        rw [(setProps_same _ _ _ _).1] at hm
        exact absurd (h3 _ hm) (Nat.lt_irrefl _)
    · exact hf
  | update id rep =>
    simp only [step, Out.ok.injEq, update] at h
    subst h
    split
    · exact hf
    · rename_i n hn
      intro m hm hm2
      rcases mem_setNs hm with ⟨rfl, _⟩ | ⟨hm, _⟩
      · rw [(setProps_same _ _ _ _).1] at hm2
        rcases (setProps_state env n false rep).1 with he | he
        · rw [he]; exact hf n (ns?_some hn).1 hm2
        · rw [he]; decide
      · exact hf m hm hm2
  | delete id =>
    simp only [step, Out.ok.injEq, delete] at h
    subst h
    exact fun n hn => hf n (List.mem_filter.mp hn).1
  | changed uri dev running ok =>
    simp only [step, Out.ok.injEq] at h
    subst h
    intro m hm hm2
    obtain ⟨n, hn, hh⟩ := changed_mem hm
    rcases hh with rfl | ⟨hw, rfl⟩
    · rcases changed_inflight hm2 with hm2 | ⟨o, ho, hw, he⟩
      · exact hf _ hn hm2
      · have e1 := ns?_of_mem h1 ho
        rw [← he, ns?_of_mem h1 hn] at e1
        cases e1
        rw [hw]; decide
    · simp
  | respond k code =>
    simp only [step, respond] at h
    split at h
    · cases h; exact hf
    · split at h
      · cases h
      · rename_i n hn
        cases h
        intro m hm hm2
        rcases mem_setNs hm with ⟨rfl, _⟩ | ⟨hm, _⟩
        · cases code <;> simp [codeState]
        · exact hf m hm (List.mem_of_mem_eraseIdx hm2)

/-- Every push request goes to an endpoint and a path, in every history in which no client
clears the target or names a target without a path.  Partial: clients may do that, see
`cleared_target_false` and `pathless_target_false`. -/
theorem aimed_partial (env : Env) (os : List Op) (hk : ∀ o, o ∈ os → KeptOp env o) (s : St)
    (h : run env {} os = .ok s) : ∀ x, x ∈ s.sent → x.path ≠ [] ∧ x.ep ≠ none := by
  suffices hs : ∀ (os : List Op) (s0 s : St), (∀ o, o ∈ os → KeptOp env o) → run env s0 os = .ok s →
      Ids s0 → (∀ n, n ∈ s0.nss → n.id ∈ s0.inflight → n.state ≠ .wfp) →
      ((∀ n, n ∈ s0.nss → Aimed n) ∧ ∀ x, x ∈ s0.sent → x.path ≠ [] ∧ x.ep ≠ none) →
      ∀ x, x ∈ s.sent → x.path ≠ [] ∧ x.ep ≠ none from
    hs os {} s hk h ids_empty (by simp) ⟨by simp, by simp⟩
  intro os
  induction os with
  | nil => intro s0 s _ h _ _ hi; cases h; exact hi.2
  | cons o os ih =>
    intro s0 s hk h hids hfl hi
    rw [run] at h
    cases hst : step env s0 o with
    | ub => rw [hst] at h; cases h
    | ok s1 =>
      rw [hst] at h
      refine ih s1 s (fun o ho => hk o (List.mem_cons_of_mem _ ho)) h (step_ids hids hst) (flight_step hids hfl hst) ?_
      have hko := hk o List.mem_cons_self
      obtain ⟨i1, i2⟩ := hi
      cases o with
      | create dev rep =>
        simp only [step, Out.ok.injEq, create] at hst
        subst hst
        split
        · refine ⟨fun n hn => ?_, i2⟩
          rcases List.mem_append.mp hn with hn | hn
          · exact i1 n hn
          · rw [List.mem_singleton] at hn
            subst hn
            exact aimed_setProps rep hko (fun hc => absurd rfl hc) (fun hc => by cases hc)
        · exact ⟨i1, i2⟩
      | update id rep =>
        simp only [step, Out.ok.injEq, update] at hst
        subst hst
        split
        · exact ⟨i1, i2⟩
        · rename_i n hn
          refine ⟨fun m hm => ?_, i2⟩
          rcases mem_setNs hm with ⟨rfl, _⟩ | ⟨hm, _⟩
          · exact aimed_setProps rep hko (i1 n (ns?_some hn).1) (fun hc => by cases hc)
          · exact i1 m hm
      | delete id =>
        simp only [step, Out.ok.injEq, delete] at hst
        subst hst
        exact ⟨fun n hn => i1 n (List.mem_filter.mp hn).1, i2⟩
      | changed uri dev running ok =>
        simp only [step, Out.ok.injEq] at hst
        subst hst
        refine ⟨fun m hm => ?_, fun x hx => ?_⟩
        · obtain ⟨n, hn, hh⟩ := changed_mem hm
          rcases hh with rfl | ⟨hw, rfl⟩
          · exact i1 _ hn
          · exact fun _ => i1 n hn (by rw [hw]; decide)
        · rcases changed_sent hx with hx | ⟨n, hn, hw, _, e1, e2⟩
          · exact i2 x hx
          · rw [e1, e2]
            exact i1 n hn (by rw [hw]; decide)
      | respond k code =>
        simp only [step, respond] at hst
        split at hst
        · cases hst; exact ⟨i1, i2⟩
        · split at hst
          · cases hst
          · rename_i n hn
            cases hst
            refine ⟨fun m hm => ?_, i2⟩
            rcases mem_setNs hm with ⟨rfl, _⟩ | ⟨hm, _⟩
            · intro _
              obtain ⟨hm1, hm2⟩ := ns?_some hn
              exact i1 n hm1 (hfl n hm1 (by rw [hm2]; exact List.mem_of_getElem? (by assumption)))
            · exact i1 m hm

example : ∀ o, o ∈ [Op.create 0 exRep, exChange, .respond 0 .changed, exChange] → KeptOp exEnv o := by
  intro o ho
  simp only [List.mem_cons, List.not_mem_nil, or_false] at ho
  rcases ho with rfl | rfl | rfl | rfl
  · intro v hv
    simp only [exRep, List.mem_cons, Prod.mk.injEq, Val.str.injEq, List.not_mem_nil, or_false] at hv
    rcases hv with ⟨h, _⟩ | ⟨_, rfl⟩
    · exact absurd h (by decide)
    · exact ⟨by decide, fun ep h => by simp [exEnv, exParse, show b "/t" ≠ [] by decide] at h⟩
  · trivial
  · trivial
  · trivial

/-- Disagreement: a client clears the target of a selector that waits for an update; the
request is accepted, the selector goes on waiting for updates, and the next change is sent
to no endpoint. -/
theorem cleared_target_false :
    accepts exEnv 0 [(b "pushtarget", .str [])] (after [.create 0 exRep]) = true ∧
    (after [.create 0 exRep, .update 0 [(b "pushtarget", .str [])], exChange]).sent = [⟨0, b "/light", none, []⟩] := by
  decide

/-- Disagreement: a client names a target without a path; the request is refused, but the
next change is sent to the new endpoint, without a path. -/
theorem pathless_target_false :
    accepts exEnv 0 [(b "pushtarget", .str (b "coap://x"))] (after [.create 0 exRep]) = false ∧
    (after [.create 0 exRep, .update 0 [(b "pushtarget", .str (b "coap://x"))], exChange]).sent =
      [⟨0, b "/light", some 1, []⟩] := by
  decide

/-! ## One request at a time -/

/-- The use for which a selector has one request at a time: no new target while it waits
for a response, and not deleted then. -/
def Calm (s : St) : Op → Prop
  | .update id rep => ∀ n, s.ns? id = some n → n.state = .wfr → ∀ v, (b "pushtarget", Val.str v) ∈ rep → v = []
  | .delete id => id ∉ s.inflight
  | _ => True

/-- A history of such uses. -/
def CalmRun (env : Env) (s : St) : List Op → Prop
  | [] => True
  | o :: os => Calm s o ∧ ∀ s', step env s o = .ok s' → CalmRun env s' os

/-- What holds then: a selector has one request waiting if it waits for a response, and
none otherwise; a request that waits is one of a selector that is there. -/
def OneEach (s : St) : Prop :=
  (∀ n, n ∈ s.nss → waiting n.id s = if n.state = .wfr then 1 else 0) ∧
    ∀ i, i ∈ s.inflight → ∃ n, n ∈ s.nss ∧ n.id = i

open Classical in
theorem count_hits (r : Rsc) (uri : Bytes) (dev : Nat) (ok : Nat → Bool) (l : List Ns)
    (hn : (l.map (·.id)).Nodup) (n : Ns) (hm : n ∈ l) :
    ((loop r uri dev true ok l).2.map (·.id)).count n.id =
      if Hit r uri dev n ∧ r.builder = true ∧ ok n.id = true then 1 else 0 := by
  rw [loop_eq]
  simp only [List.map_map]
  have hc : ((fun x : Sent => x.id) ∘ fun n : Ns => (⟨n.id, r.uri, n.ep, n.path⟩ : Sent)) = fun n => n.id := rfl
  rw [hc]
  induction l with
  | nil => cases hm
  | cons a l ih =>
    rw [List.map_cons, List.nodup_cons] at hn
    rw [List.filter_cons]
    rcases List.mem_cons.mp hm with rfl | hm
    · have hz : ∀ p : Ns → Bool, ((l.filter p).map (·.id)).count n.id = 0 := by
        intro p
        rw [List.count_eq_zero]
        intro hx
        obtain ⟨m, h1, h2⟩ := List.mem_map.mp hx
        exact hn.1 (List.mem_map.mpr ⟨m, (List.mem_filter.mp h1).1, h2⟩)
      split
      · rename_i h
        simp only [decide_eq_true_eq] at h
        rw [if_pos h, List.map_cons, List.count_cons_self, hz]
      · rename_i h
        simp only [decide_eq_true_eq] at h
        rw [if_neg h, hz]
    · have hne : a.id ≠ n.id := fun hc => hn.1 (by rw [hc]; exact List.mem_map_of_mem hm)
      split
      · rw [List.map_cons, List.count_cons_of_ne hne]
        exact ih hn.2 hm
      · exact ih hn.2 hm

theorem count_eraseIdx : ∀ (l : List Nat) (k id : Nat), l[k]? = some id → ∀ j,
    (l.eraseIdx k).count j = l.count j - if id = j then 1 else 0
  | [], k, id, h, j => by simp at h
  | a :: l, 0, id, h, j => by
    simp at h
    subst h
    by_cases hj : a = j
    · subst hj; simp
    · simp [hj, List.count_cons]
  | a :: l, k + 1, id, h, j => by
    simp only [List.getElem?_cons_succ] at h
    rw [List.eraseIdx_cons_succ, List.count_cons, List.count_cons, count_eraseIdx l k id h j]
    by_cases hj : id = j
    · have : 0 < l.count j := List.count_pos_iff.mpr (hj ▸ List.mem_of_getElem? h)
      rw [if_pos hj]
      omega
    · rw [if_neg hj]; omega

theorem changed_cases (env : Env) (uri : Bytes) (dev : Nat) (running : Bool) (ok : Nat → Bool) (s : St) :
    changed env uri dev running ok s = s ∨ ∃ r, changed env uri dev running ok s =
      { s with nss := (loop r uri dev true ok s.nss).1
               inflight := s.inflight ++ (loop r uri dev true ok s.nss).2.map (·.id)
               sent := s.sent ++ (loop r uri dev true ok s.nss).2 } := by
  unfold changed
  split
  · exact Or.inl rfl
  · rename_i r _
    split
    · exact Or.inl rfl
    · cases running
      · left; simp [loop_stopped]
      · exact Or.inr ⟨r, rfl⟩

open Classical in
theorem one_step {env : Env} {s : St} (hi : Ids s) (ho : OneEach s) {o : Op} (hc : Calm s o) :
    ∃ s', step env s o = .ok s' ∧ OneEach s' := by
  obtain ⟨h1, h2, h3⟩ := hi
  obtain ⟨o1, o2⟩ := ho
  cases o with
  | create dev rep =>
    refine ⟨_, rfl, ?_⟩
    unfold create
    dsimp only
    split
    · refine ⟨fun n hn => ?_, fun i hi => ?_⟩
      · rcases List.mem_append.mp hn with hn | hn
        · exact o1 n hn
        · rw [List.mem_singleton] at hn
          subst hn
          have hz : s.inflight.count s.next = 0 :=
            List.count_eq_zero.mpr fun hc => absurd (h3 _ hc) (Nat.lt_irrefl _)
          have hs : (setProps env (fresh s.next dev) false rep).1.state ≠ .wfr := by
            rcases (setProps_state env (fresh s.next dev) false rep).1 with he | he
            · rw [he]; exact fun h => by cases h
            · rw [he]; decide
          rw [if_neg hs]
          unfold waiting
          rw [(setProps_same _ _ _ _).1]
          exact hz
      · obtain ⟨n, hn, he⟩ := o2 i hi
        exact ⟨n, List.mem_append_left _ hn, he⟩
    · exact ⟨o1, o2⟩
  | update id rep =>
    refine ⟨_, rfl, ?_⟩
    unfold update
    split
    · exact ⟨o1, o2⟩
    · rename_i n hn
      obtain ⟨hm, hid⟩ := ns?_some hn
      have hsame := (setProps_same env n false rep).1
      refine ⟨fun m hmm => ?_, fun i hi => ?_⟩
      · rcases mem_setNs hmm with ⟨rfl, _⟩ | ⟨hm2, _⟩
        · have hw := o1 n hm
          unfold waiting at hw ⊢
          rw [hsame]
          show s.inflight.count n.id = _
          rw [hw]
          obtain ⟨a1, a2, a3, a4, a5⟩ := setProps_state env n false rep
          by_cases hr : n.state = .wfr
          · have hst : ¬ Stopped n := by unfold Stopped; rw [hr]; decide
            have : (setProps env n false rep).1.state = n.state := by
              apply Classical.byContradiction
              intro hne
              rcases a5 hst hne with h | ⟨v, hv, hmem⟩
              · cases h
              · exact hv (hc n hn hr v hmem)
            rw [this]
          · rw [if_neg hr]
            rcases a1 with he | he
            · rw [he, if_neg hr]
            · rw [he]; rfl
        · exact o1 m hm2
      · obtain ⟨m, hmm, he⟩ := o2 i hi
        have : i ∈ (s.setNs (setProps env n false rep).1).nss.map (·.id) := by
          rw [setNs_ids]
          exact List.mem_map.mpr ⟨m, hmm, he⟩
        obtain ⟨m', hm', he'⟩ := List.mem_map.mp this
        exact ⟨m', hm', he'⟩
  | delete id =>
    refine ⟨_, rfl, ?_⟩
    unfold delete
    refine ⟨fun n hn => o1 n (List.mem_filter.mp hn).1, fun i hi => ?_⟩
    obtain ⟨n, hn, he⟩ := o2 i hi
    refine ⟨n, List.mem_filter.mpr ⟨hn, ?_⟩, he⟩
    have : n.id ≠ id := fun hx => hc (by rw [← hx, he]; exact hi)
    simpa using this
  | changed uri dev running ok =>
    refine ⟨_, rfl, ?_⟩
    refine ⟨fun m hm => ?_, fun i hi => ?_⟩
    · rcases changed_cases env uri dev running ok s with he | ⟨r, he⟩
      · rw [he] at hm ⊢
        exact o1 m hm
      · rw [he] at hm ⊢
        dsimp only at hm
        rw [loop_eq] at hm
        obtain ⟨n, hn, rfl⟩ := List.mem_map.mp hm
        have hw := o1 n hn
        have hcnt := count_hits r uri dev ok s.nss h1 n hn
        unfold waiting at hw ⊢
        dsimp only
        rw [List.count_append]
        by_cases hh : Hit r uri dev n ∧ r.builder = true ∧ ok n.id = true
        · rw [if_pos hh] at hcnt ⊢
          show s.inflight.count n.id + _ = _
          rw [hcnt, hw, hh.1.2.1]
          rfl
        · rw [if_neg hh] at hcnt ⊢
          rw [hcnt, hw]
          rfl
    · have hids := (changed_ids env uri dev running ok s).1
      have : i ∈ s.nss.map (·.id) := by
        rcases changed_inflight hi with hi | ⟨n, hn, _, rfl⟩
        · obtain ⟨n, hn, he⟩ := o2 i hi
          exact List.mem_map.mpr ⟨n, hn, he⟩
        · exact List.mem_map_of_mem hn
      rw [← hids] at this
      obtain ⟨m', hm', he'⟩ := List.mem_map.mp this
      exact ⟨m', hm', he'⟩
  | respond k code =>
    unfold step respond
    dsimp only
    cases hk : s.inflight[k]? with
    | none => exact ⟨s, rfl, o1, o2⟩
    | some id =>
      have hmem : id ∈ s.inflight := List.mem_of_getElem? hk
      obtain ⟨n, hn, he⟩ := o2 id hmem
      have hns := ns?_of_mem h1 hn
      rw [he] at hns
      simp only [hns]
      refine ⟨_, rfl, fun m hm => ?_, fun i hi => ?_⟩
      · have hcount := count_eraseIdx s.inflight k id hk
        unfold waiting
        dsimp only
        rw [hcount]
        rcases mem_setNs hm with ⟨rfl, _⟩ | ⟨hm2, hne⟩
        · have hw := o1 n hn
          unfold waiting at hw
          have hpos : 0 < s.inflight.count id := List.count_pos_iff.mpr hmem
          dsimp only
          rw [he]
          rw [he] at hw
          by_cases hr : n.state = .wfr
          · rw [if_pos hr] at hw
            rw [hw]
            cases code <;> simp [codeState]
          · rw [if_neg hr] at hw
            omega
        · have hid : id ≠ m.id := fun hx => hne (by rw [← hx]; exact he.symm)
          rw [if_neg hid]
          exact o1 m hm2
      · have hi' : i ∈ s.inflight := List.mem_of_mem_eraseIdx hi
        obtain ⟨m, hmm, he2⟩ := o2 i hi'
        have : i ∈ (s.setNs { n with state := codeState code }).nss.map (·.id) := by
          rw [setNs_ids]
          exact List.mem_map.mpr ⟨m, hmm, he2⟩
        obtain ⟨m', hm', he'⟩ := List.mem_map.mp this
        exact ⟨m', hm', he'⟩

/-- In every history in which no selector gets a target or is deleted while it waits for a
response, every step is defined, a selector has at most one request waiting, and it has
one exactly while its state is "waiting for response".  Partial: clients may do either, see
`two_requests_false` and `deleted_response_ub`. -/
theorem one_request_partial (env : Env) (os : List Op) (hc : CalmRun env {} os) :
    ∃ s, run env {} os = .ok s ∧ ∀ n, n ∈ s.nss → waiting n.id s = if n.state = .wfr then 1 else 0 := by
  suffices h : ∀ (os : List Op) (s : St), Ids s → OneEach s → CalmRun env s os →
      ∃ s', run env s os = .ok s' ∧ OneEach s' by
    obtain ⟨s, h1, h2⟩ := h os {} ids_empty ⟨by simp, by simp⟩ hc
    exact ⟨s, h1, h2.1⟩
  intro os
  induction os with
  | nil => intro s _ ho _; exact ⟨s, rfl, ho⟩
  | cons o os ih =>
    intro s hi ho hc
    obtain ⟨s1, h1, h2⟩ := one_step (env := env) hi ho hc.1
    rw [run, h1]
    exact ih s1 (step_ids hi h1) h2 (hc.2 s1 h1)

/-- A calm history, with a second target while waiting for an update and a selector that is
deleted when its request was answered. -/
def calmOps : List Op :=
  [.create 0 exRep, .create 0 exRep, exChange, .respond 1 .changed, .update 1 exRep, .delete 1, .respond 0 .other]

example : CalmRun exEnv {} calmOps := by
  refine ⟨trivial, fun s h => ?_⟩; cases h
  refine ⟨trivial, fun s h => ?_⟩; cases h
  refine ⟨trivial, fun s h => ?_⟩; cases h
  refine ⟨trivial, fun s h => ?_⟩
  rw [show step exEnv _ (.respond 1 .changed) = .ok _ from rfl] at h
  cases h
  refine ⟨fun n hn hw => ?_, fun s h => ?_⟩
  · rw [show St.ns? _ 1 = some _ from rfl] at hn
    cases hn
    cases hw
  cases h
  have hd : 1 ∉ (after (calmOps.take 5)).inflight := by decide
  refine ⟨hd, fun s h => ?_⟩; cases h
  exact ⟨trivial, fun s h => trivial⟩

example : (after calmOps).sent.length = 2 ∧ (after calmOps).nss.map (·.state) = [.err] := by decide

/-- Disagreement: a client sets the target again while the selector waits for a response;
the next change is sent although the request before is still waiting. -/
theorem two_requests_false :
    waiting 0 (after [.create 0 exRep, exChange, .update 0 exRep, exChange]) = 2 := by decide

/-- Undefined: a selector is deleted while its request waits; the response, or its timeout,
writes to the selector that was freed. -/
theorem deleted_response_ub (code : Code) :
    run exEnv {} [.create 0 exRep, exChange, .delete 0, .respond 0 code] = .ub := by
  cases code <;> rfl

/-! ## Changes are not remembered -/

/-- Disagreement: a change while the selector waits for a response is never sent, although
the response is good and the selector waits for updates again: the target keeps the state
before. -/
theorem change_lost_false :
    (after [.create 0 exRep, exChange, exChange, .respond 0 .changed]).sent.length = 1 ∧
    (after [.create 0 exRep, exChange, exChange, .respond 0 .changed]).inflight = [] ∧
    (after [.create 0 exRep, exChange, exChange, .respond 0 .changed]).nss.map (·.state) = [.wfu] := by decide

/-- A selector that is refused by its properties leaves no trace; the others stay. -/
theorem refused_create (env : Env) (dev : Nat) (rep : Rep) (s : St)
    (h : (setProps env (fresh s.next dev) false rep).2 = false) :
    (create env dev rep s).nss = s.nss ∧ (create env dev rep s).inflight = s.inflight := by
  unfold create
  simp [h]

end Verif.Push
