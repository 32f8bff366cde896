import Verif.Separate.Spec

/-! Properties of separate responses. -/

namespace Verif.Separate

open Spec

/-! ### Lemmas -/

/-- What holds of a handle at all times, for an application that keeps to the
rules: buffers have numbers below `next`, an active handle has a live buffer, the
records are counted. -/
structure Inv (s : Sys) : Prop where
  below : ∀ i ∈ s.heap, i < s.next
  nodup : s.heap.Nodup
  live : s.active = true → ∃ i, s.buf = some i ∧ i ∈ s.heap
  count : s.active = true → s.stores = s.reqs.length
  idle : s.active = false → s.stores = 0

theorem inv_fresh : Inv fresh :=
  ⟨by simp [fresh], by simp [fresh], by simp [fresh], by simp [fresh], by simp [fresh]⟩

theorem record_length (q : Req) (l : List Store) :
    (record q l).length = if l.any (same q) then l.length else l.length + 1 := by
  induction l with
  | nil => rfl
  | cons x l ih =>
    unfold record
    by_cases h : same q x = true
    · rw [if_pos h]; simp [h]
    · rw [if_neg h, List.length_cons, ih]
      have : same q x = false := by simpa using h
      rw [List.any_cons, this, Bool.false_or, List.length_cons]
      split <;> rfl

theorem record_any (q : Req) (l : List Store) : (record q l).any (same q) = true := by
  induction l with
  | nil => simp [record, same]
  | cons x l ih =>
    unfold record
    by_cases h : same q x = true
    · rw [if_pos h, List.any_cons]
      have : same q { x with ep := q.ep } = true := h
      rw [this]; rfl
    · rw [if_neg h, List.any_cons, ih, Bool.or_true]

theorem clear_length (q : Req) (l : List Store) (h : l.any (same q) = true) :
    (clear q l).length + 1 = l.length := by
  induction l with
  | nil => cases h
  | cons x l ih =>
    unfold clear
    by_cases hx : same q x = true
    · rw [if_pos hx]; rfl
    · have hf : same q x = false := by simpa using hx
      rw [if_neg hx, List.length_cons, List.length_cons, ih (by rw [List.any_cons, hf, Bool.false_or] at h; exact h)]

/-- The state after the first part of accepting. -/
structure Begun (s : Sys) : Prop where
  below : ∀ i ∈ s.heap, i < s.next
  nodup : s.heap.Nodup
  live : ∃ i, s.buf = some i ∧ i ∈ s.heap
  count : s.stores = s.reqs.length

theorem begin_inv (s : Sys) (h : Inv s) (m : Mem) :
    ((begin_ s m).2 = true ∧ Begun (begin_ s m).1 ∧ (begin_ s m).1.active = s.active ∧
      (s.active = false → (begin_ s m).1.reqs = [])) ∨
    ((begin_ s m).2 = false ∧ Inv (begin_ s m).1 ∧ s.active = false ∧ (begin_ s m).1.heap = s.heap) := by
  unfold begin_
  cases ha : s.active with
  | true =>
    rw [if_pos rfl]
    exact Or.inl ⟨rfl, ⟨h.below, h.nodup, h.live ha, h.count ha⟩, ha, fun x => by cases x⟩
  | false =>
    rw [if_neg (by simp)]
    cases hb : m.buf with
    | true =>
      rw [if_pos rfl]
      refine Or.inl ⟨rfl, ⟨?_, ?_, ⟨s.next, rfl, by simp⟩, h.idle ha⟩, rfl, fun _ => rfl⟩
      · intro i hi
        rcases List.mem_cons.1 hi with rfl | hi
        · exact Nat.lt_succ_self _
        · exact Nat.lt_succ_of_lt (h.below i hi)
      · exact List.nodup_cons.2 ⟨fun hi => absurd (h.below _ hi) (Nat.lt_irrefl _), h.nodup⟩
    | false =>
      rw [if_neg (by simp)]
      refine Or.inr ⟨rfl, ⟨h.below, h.nodup, ?_, ?_, fun _ => h.idle ha⟩, rfl, rfl⟩
      · intro x; cases x
      · intro x; cases x

theorem request_inv (s : Sys) (h : Inv s) (q : Req) (m : Mem) : Inv (request s q m).2 := by
  unfold request accept
  rcases begin_inv s h m with ⟨hb, hB, hact, hnil⟩ | ⟨hb, hI, _⟩
  · rcases hbe : begin_ s m with ⟨t, x⟩
    rw [hbe] at hb hB hact hnil
    dsimp only at hb hB hact hnil
    subst hb
    dsimp only
    by_cases h1 : (!t.reqs.any (same q) && !m.store) = true
    · rw [if_pos h1]
      refine ⟨hB.below, hB.nodup, fun _ => hB.live, fun _ => hB.count, fun hx => ?_⟩
      have hx : t.active = false := hx
      rw [hact] at hx
      show t.stores = 0
      rw [hB.count, hnil hx]; rfl
    · rw [if_neg h1]
      have hlen : (record q t.reqs).length = if t.reqs.any (same q) then t.stores else t.stores + 1 := by
        rw [record_length, hB.count]
      cases hc : q.con with
      | false =>
        simp only [Bool.false_eq_true, if_false, if_true]
        exact ⟨hB.below, hB.nodup, fun _ => hB.live, fun _ => hlen.symm, fun x => by cases x⟩
      | true =>
        rw [if_pos rfl]
        cases ha : m.ack with
        | true =>
          rw [if_pos rfl]
          exact ⟨hB.below, hB.nodup, fun _ => hB.live, fun _ => hlen.symm, fun x => by cases x⟩
        | false =>
          rw [if_neg (by simp)]
          have hcl := clear_length q (record q t.reqs) (record_any q t.reqs)
          refine ⟨hB.below, hB.nodup, fun _ => hB.live, fun _ => ?_, fun hx => ?_⟩
          · show (if t.reqs.any (same q) then t.stores else t.stores + 1) - 1 = (clear q (record q t.reqs)).length
            omega
          · have hx : t.active = false := hx
            rw [hact] at hx
            have hz : t.stores = 0 := by rw [hB.count, hnil hx]; rfl
            have ha : t.reqs.any (same q) = false := by rw [hnil hx]; rfl
            show (if t.reqs.any (same q) then t.stores else t.stores + 1) - 1 = 0
            rw [ha, hz]; rfl
  · rcases hbe : begin_ s m with ⟨t, x⟩
    rw [hbe] at hb hI
    dsimp only at hb hI
    subst hb
    exact hI

theorem send_inv (s : Sys) (h : Inv s) (ha : s.active = true) (e : Env) (c len : Nat) :
    ∃ m t, send s e (some c) len = .ok (m, t) ∧ Inv t ∧ t.active = false ∧ t.reqs = [] ∧
      m = (answers e s.reqs c len).1 ∧ t.heap = s.heap.erase (s.buf.getD 0) ∧
      t.txs = s.txs + (answers e s.reqs c len).2 := by
  obtain ⟨i, hi, hm⟩ := h.live ha
  have hw : write s = .ok s := by unfold write; rw [hi]; exact if_pos hm
  have hif : (if s.reqs ≠ [] ∧ len ≠ 0 then write s else .ok s) = Out.ok s := by
    split
    · exact hw
    · rfl
  unfold send
  dsimp only
  rw [hif]
  show ∃ m t, (freeBuf _).bind _ = _ ∧ _
  unfold freeBuf
  dsimp only
  rw [hi]
  dsimp only
  rw [if_pos hm]
  refine ⟨_, _, rfl, ⟨?_, ?_, (fun x => by cases x), (fun x => by cases x), ?_⟩, rfl, rfl, rfl, rfl, rfl⟩
  · intro j hj; exact h.below j (List.mem_of_mem_erase hj)
  · exact h.nodup.erase i
  · intro _
    show s.stores - s.reqs.length = 0
    rw [h.count ha]; omega

/-! ### Memory -/

/-- Whatever requests come and whatever allocations fail: an application that
writes and sends only while its handle is active, and sends only statuses, never
uses a buffer that is not allocated or frees one twice, and at the end the records
of the handle are exactly those of the waiting requests. Part of the full claim:
see `invalid_code_ub` and `inactive_send_ub` for the rest. -/
theorem safe_partial (l : List Ev) : ∀ s, Inv s → History s l → ∃ m t, run s l = .ok (m, t) ∧ Inv t := by
  induction l with
  | nil => intro s h _; exact ⟨[], s, rfl, h⟩
  | cons v l ih =>
    intro s h hh
    cases hh with
    | cons _ _ _ ha hr =>
      have key : ∃ m t, step s v = .ok (m, t) ∧ Inv t := by
        cases v with
        | request q m => exact ⟨_, _, rfl, request_inv s h q m⟩
        | write =>
          obtain ⟨i, hi, hm⟩ := h.live ha
          refine ⟨[], s, ?_, h⟩
          show (write s).bind _ = _
          unfold write
          rw [hi]
          dsimp only
          rw [if_pos hm]
          rfl
        | send e code len =>
          obtain ⟨ha, hc⟩ := ha
          cases code with
          | none => cases hc
          | some c =>
            obtain ⟨m, t, hs, hi, _⟩ := send_inv s h ha e c len
            exact ⟨m, t, hs, hi⟩
      obtain ⟨m, t, hs, hi⟩ := key
      obtain ⟨m', t', hs', hi'⟩ := ih t hi (hr m t hs)
      refine ⟨m ++ m', t', ?_, hi'⟩
      unfold run
      rw [hs]
      show (run t l).bind _ = _
      rw [hs']
      rfl

/-- The same from the start. -/
theorem safe_from_start_partial (l : List Ev) (h : History fresh l) :
    ∃ m t, run fresh l = .ok (m, t) ∧ (t.active = true → t.stores = t.reqs.length) ∧
      (t.active = false → t.stores = 0) := by
  obtain ⟨m, t, hr, hi⟩ := safe_partial l fresh inv_fresh h
  exact ⟨m, t, hr, hi.count, hi.idle⟩

/-- A request of the examples. -/
def exReq (ep : Nat) (tok : List UInt8) : Req := ⟨ep, tok, -1, true, 7, [97], 64, false⟩
/-- Good surroundings. -/
def exEnv : Env := ⟨fun _ => true, fun _ => false, fun _ => true, fun _ => true⟩
theorem exEnv_good : Good exEnv := ⟨fun _ => rfl, fun _ => rfl, fun _ => rfl⟩

example : History fresh [.request (exReq 1 [1]) plenty, .write, .send exEnv (some 69) 10] := by
  refine .cons _ _ _ trivial ?_
  intro m t h; cases h
  refine .cons _ _ _ rfl ?_
  intro m t h; cases h
  refine .cons _ _ _ ⟨rfl, rfl⟩ ?_
  intro m t h; cases h
  exact .nil _

/-- UNDEFINED BEHAVIOUR: sending with an invalid status frees the buffer but leaves
the handle active; after the next request the application writes to, and frees,
the freed buffer. -/
theorem invalid_code_ub : run fresh [.request (exReq 1 [1]) plenty, .write, .send exEnv none 0,
    .request (exReq 2 [2]) plenty, .write] = .ub := by decide

/-- UNDEFINED BEHAVIOUR: sending twice (the handle is not active any more) frees the
buffer twice. -/
theorem inactive_send_ub : run fresh [.request (exReq 1 [1]) plenty, .send exEnv (some 69) 0,
    .send exEnv (some 69) 0] = .ub := by decide

/-- With memory for everything, buffers are never lost: an active handle has
exactly one, an idle one none. Part of the full claim (`leak_false`). -/
theorem no_leak_partial (l : List Ev) : ∀ s, Inv s → (s.heap = if s.active then s.buf.toList else []) →
    History s l → (∀ v ∈ l, Memory v) →
    ∃ m t, run s l = .ok (m, t) ∧ t.heap = (if t.active then t.buf.toList else []) := by
  induction l with
  | nil => intro s h hh _ _; exact ⟨[], s, rfl, hh⟩
  | cons v l ih =>
    intro s h hh hist hmem
    cases hist with
    | cons _ _ _ ha hr =>
      have key : ∃ m t, step s v = .ok (m, t) ∧ Inv t ∧ t.heap = (if t.active then t.buf.toList else []) := by
        cases v with
        | request q m =>
          refine ⟨_, _, rfl, request_inv s h q m, ?_⟩
          have hm : m = plenty := hmem _ (List.mem_cons_self ..)
          subst hm
          show (request s q plenty).2.heap = if (request s q plenty).2.active then (request s q plenty).2.buf.toList else []
          unfold request accept begin_
          cases hac : s.active with
          | true =>
            rw [hac] at hh
            simp only [plenty, if_true, Bool.not_true, Bool.and_false, Bool.false_eq_true, if_false]
            cases q.con <;> simp only [Bool.false_eq_true, if_false, if_true] <;> exact hh
          | false =>
            rw [hac] at hh
            simp only [plenty, if_true, Bool.not_true, Bool.and_false, Bool.false_eq_true, if_false] at hh ⊢
            cases q.con <;> simp only [Bool.false_eq_true, if_false, if_true] <;>
              (rw [hh]; rfl)
        | write =>
          obtain ⟨i, hi, hm⟩ := h.live ha
          refine ⟨[], s, ?_, h, hh⟩
          show (write s).bind _ = _
          unfold write
          rw [hi]
          dsimp only
          rw [if_pos hm]
          rfl
        | send e code len =>
          obtain ⟨ha, hc⟩ := ha
          cases code with
          | none => cases hc
          | some c =>
            obtain ⟨m, t, hs, hi, hta, _, _, hhe, _⟩ := send_inv s h ha e c len
            refine ⟨m, t, hs, hi, ?_⟩
            rw [hta, hhe]
            obtain ⟨i, hb, him⟩ := h.live ha
            rw [ha, hb] at hh
            rw [hh, hb]
            simp
      obtain ⟨m, t, hs, hi, hhe⟩ := key
      obtain ⟨m', t', hs', hi'⟩ := ih t hi hhe (hr m t hs) fun x hx => hmem x (List.mem_cons_of_mem _ hx)
      refine ⟨m ++ m', t', ?_, hi'⟩
      unfold run
      rw [hs]
      show (run t l).bind _ = _
      rw [hs']
      rfl

example : (run fresh [.request (exReq 1 [1]) plenty, .request (exReq 2 [2]) plenty, .write,
    .send exEnv (some 69) 10]).bind (fun x => .ok x.2.heap) = .ok [] := by decide

/-- FALSE: a handle that is idle keeps no memory. If the record or the ACK of the
first request cannot be allocated the buffer is kept, and the next request
replaces the pointer to it. -/
theorem leak_false : ¬ ∀ (l : List Ev) (m : List Msg) (t : Sys), History fresh l → run fresh l = .ok (m, t) →
    t.active = false → t.heap = [] := by
  intro h
  have := h [.request (exReq 1 [1]) ⟨true, false, true⟩, .request (exReq 1 [1]) plenty, .send exEnv (some 69) 0]
    [.ack 1 7, .resp 1 [1] 69 none 0] ⟨false, [], some 1, [0], 2, 0, 0⟩ ?_ (by decide) rfl
  · cases this
  · refine .cons _ _ _ trivial ?_
    intro m t h; cases h
    refine .cons _ _ _ trivial ?_
    intro m t h; cases h
    refine .cons _ _ _ ⟨rfl, rfl⟩ ?_
    intro m t h; cases h
    exact .nil _

/-! ### Answers -/

/-- The record of a request. -/
def storeOf (q : Req) : Store := ⟨q.token, q.observe, q.ep, q.uri, q.block2, q.tcp⟩

theorem same_distinct (x q : Req) (h : Distinct x q) : same q (storeOf x) = false := by
  unfold Distinct at h
  unfold same storeOf
  rw [Bool.and_eq_false_iff]
  by_cases e : x.token = q.token
  · right
    have : x.observe ≠ q.observe := fun e' => h ⟨e, e'⟩
    simpa using this
  · left; simpa using e

theorem record_new (q : Req) (l : List Req) (h : ∀ x ∈ l, Distinct x q) :
    record q (l.map storeOf) = (l ++ [q]).map storeOf := by
  induction l with
  | nil => rfl
  | cons x l ih =>
    have hx : same q (storeOf x) = false := same_distinct x q (h x (by simp))
    simp only [List.map_cons, List.cons_append]
    rw [record, hx, if_neg (by simp), ih fun y hy => h y (by simp [hy])]

theorem clear_record (q : Req) (l : List Req) (h : ∀ x ∈ l, Distinct x q) :
    clear q (record q (l.map storeOf)) = l.map storeOf := by
  induction l with
  | nil => simp [record, clear, same]
  | cons x l ih =>
    have hx : same q (storeOf x) = false := same_distinct x q (h x (by simp))
    simp only [List.map_cons]
    rw [record, hx, if_neg (by simp), clear, hx, if_neg (by simp), ih fun y hy => h y (by simp [hy])]

theorem any_distinct (q : Req) (l : List Req) (h : ∀ x ∈ l, Distinct x q) : (l.map storeOf).any (same q) = false := by
  rw [List.any_eq_false]
  intro x hx
  obtain ⟨y, hy, rfl⟩ := List.mem_map.1 hx
  rw [same_distinct y q (h y hy)]
  simp

/-- Accepting one request. -/
theorem accept_one (s : Sys) (before : List Req) (hr : s.active = true → s.reqs = before.map storeOf)
    (hn : s.active = false → before = []) (q : Req) (m : Mem) (hdq : ∀ x ∈ before, Distinct x q) :
    (takes s.active (q, m) = true → (request s q m).1 = acks [q] ∧ (request s q m).2.active = true ∧
      (request s q m).2.txs = s.txs ∧ (request s q m).2.reqs = (before ++ [q]).map storeOf) ∧
    (takes s.active (q, m) = false → (request s q m).1 = [] ∧ (request s q m).2.active = s.active ∧
      (request s q m).2.txs = s.txs ∧ (s.active = true → (request s q m).2.reqs = before.map storeOf)) := by
  have hrec := record_new q before hdq
  have hcl := clear_record q before hdq
  have hcl' : clear q (before.map storeOf ++ [storeOf q]) = before.map storeOf := by
    rw [hrec, List.map_append] at hcl; exact hcl
  have hany := any_distinct q before hdq
  obtain ⟨mb, ms, ma⟩ := m
  unfold takes request accept begin_
  cases ha : s.active with
  | true =>
    have e := hr ha
    cases ms <;> cases ma <;> cases hc : q.con <;> simp [e, ha, hany, hrec, hcl', acks, hc]
  | false =>
    have hb := hn ha
    subst hb
    have hrec0 : record q [] = [storeOf q] := rfl
    cases mb <;> cases ms <;> cases ma <;> cases hc : q.con <;> simp [hrec0, acks, hc]

theorem taken_mem (l : List (Req × Mem)) : ∀ a x, x ∈ taken a l → ∃ m, (x, m) ∈ l := by
  induction l with
  | nil => intro a x h; cases h
  | cons y l ih =>
    intro a x h
    unfold taken at h
    by_cases hy : takes a y = true
    · rw [if_pos hy] at h
      rcases List.mem_cons.1 h with rfl | h
      · exact ⟨y.2, by simp⟩
      · obtain ⟨m, hm⟩ := ih _ _ h
        exact ⟨m, by simp [hm]⟩
    · rw [if_neg hy] at h
      obtain ⟨m, hm⟩ := ih _ _ h
      exact ⟨m, by simp [hm]⟩

/-- The events of requests. -/
def arrivals (l : List (Req × Mem)) : List Ev := l.map fun x => .request x.1 x.2

/-- Accepting requests one after another. -/
theorem accept_all (l : List (Req × Mem)) : ∀ (s : Sys) (before : List Req), Inv s →
    (s.active = true → s.reqs = before.map storeOf) → (s.active = false → before = []) →
    (∀ x ∈ before, ∀ y ∈ l, Distinct x y.1) → l.Pairwise (fun x y => Distinct x.1 y.1) →
    ∃ t, run s (arrivals l) = .ok (acks (taken s.active l), t) ∧ Inv t ∧
      t.active = (s.active || !(taken s.active l).isEmpty) ∧ t.txs = s.txs ∧
      (t.active = true → t.reqs = (before ++ taken s.active l).map storeOf) := by
  induction l with
  | nil =>
    intro s before h hr hn _ _
    exact ⟨s, rfl, h, by simp [taken], rfl, fun x => by rw [show taken s.active [] = [] from rfl, List.append_nil]; exact hr x⟩
  | cons y l ih =>
    intro s before h hr hn hbl hd
    obtain ⟨q, m⟩ := y
    obtain ⟨h1, h2⟩ := accept_one s before hr hn q m fun x hx => hbl x hx (q, m) (by simp)
    have hti := request_inv s h q m
    obtain ⟨hd1, hd2⟩ := List.pairwise_cons.1 hd
    have hstep : ∀ a b u, (request s q m).1 = a → run (request s q m).2 (arrivals l) = .ok (b, u) →
        run s (arrivals ((q, m) :: l)) = .ok (a ++ b, u) := by
      intro a b u ha hb
      show (Out.ok (request s q m)).bind _ = _
      show (run (request s q m).2 (arrivals l)).bind _ = _
      rw [hb, ha]
      rfl
    by_cases ht : takes s.active (q, m) = true
    · obtain ⟨e1, e2, e3, e4⟩ := h1 ht
      obtain ⟨u, hu, hui, hua, hux, hur⟩ := ih (request s q m).2 (before ++ [q]) hti (fun _ => e4)
        (fun x => by rw [e2] at x; cases x)
        (by
          intro x hx z hz
          rcases List.mem_append.1 hx with hx | hx
          · exact hbl x hx z (by simp [hz])
          · simp only [List.mem_cons, List.not_mem_nil, or_false] at hx
            subst hx
            exact hd1 z hz) hd2
      rw [e2] at hu hua hur
      have htk : taken s.active ((q, m) :: l) = q :: taken true l := by rw [taken, if_pos ht]
      rw [htk]
      refine ⟨u, ?_, hui, ?_, by rw [hux, e3], ?_⟩
      · rw [hstep _ _ _ e1 hu]
        unfold acks
        rw [← List.map_append, ← List.filter_append]
        rfl
      · rw [hua]; simp
      · intro x
        rw [hur x, List.append_assoc]
        rfl
    · have ht : takes s.active (q, m) = false := by simpa using ht
      obtain ⟨e1, e2, e3, e4⟩ := h2 ht
      obtain ⟨u, hu, hui, hua, hux, hur⟩ := ih (request s q m).2 before hti (fun x => e4 (by rw [← e2]; exact x))
        (fun x => hn (by rw [← e2]; exact x)) (fun x hx z hz => hbl x hx z (by simp [hz])) hd2
      rw [e2] at hu hua hur
      have htk : taken s.active ((q, m) :: l) = taken s.active l := by rw [taken, ht, if_neg (by simp)]
      rw [htk]
      exact ⟨u, by rw [hstep _ _ _ e1 hu]; rfl, hui, hua, by rw [hux, e3], hur⟩

theorem answers_due (e : Env) (he : Good e) (l : List Req) (ho : ∀ q ∈ l, q.observe < 2) (c len : Nat) :
    answers e (l.map storeOf) c len = (due l c len, 0) := by
  induction l with
  | nil => rfl
  | cons q l ih =>
    simp only [List.map_cons]
    unfold answers
    dsimp only
    rw [ih fun x hx => ho x (by simp [hx])]
    have hq : answerOne e (storeOf q) c len =
        ([.resp q.ep q.token c none (if q.tcp then len else min len q.block2)], 0) := by
      unfold answerOne
      rw [if_pos (show (storeOf q).observe < 2 from ho q (by simp))]
      unfold answer
      rw [he.tx, he.busy, he.bw]
      show (if (!true) = true then _ else if (!q.tcp && decide (len > q.block2)) = true then _ else _) = _
      rw [if_neg (by simp)]
      cases ht : q.tcp with
      | true => simp [storeOf]
      | false =>
        by_cases hl : len > q.block2
        · rw [if_pos (by simp [hl])]
          have hmin : min len q.block2 = q.block2 := by omega
          simp [hmin, storeOf]
        · rw [if_neg (by simp [hl])]
          have hmin : min len q.block2 = len := by omega
          simp [hmin, storeOf]
    rw [hq]
    rfl

theorem run_append (a : List Ev) : ∀ (s : Sys) (v : Ev) (x : List Msg) (y : Sys), run s a = .ok (x, y) →
    run s (a ++ [v]) = (step y v).bind fun r => .ok (x ++ r.1, r.2) := by
  induction a with
  | nil =>
    intro s v x y h
    cases h
    show (step s v).bind _ = _
    cases hh : step s v with
    | ub => rfl
    | ok r => simp [Out.bind, run]
  | cons b a iha =>
    intro s v x y h
    show (step s b).bind _ = _
    replace h : (step s b).bind _ = Out.ok (x, y) := h
    cases hh : step s b with
    | ub => rw [hh] at h; cases h
    | ok r =>
      rw [hh] at h
      replace h : (run r.2 a).bind _ = Out.ok (x, y) := h
      show (run r.2 (a ++ [v])).bind _ = _
      cases hr : run r.2 a with
      | ub => rw [hr] at h; cases h
      | ok z =>
        rw [hr] at h
        have hz : r.1 ++ z.1 = x ∧ z.2 = y := by cases h; exact ⟨rfl, rfl⟩
        rw [iha r.2 v z.1 z.2 hr, hz.2, ← hz.1]
        cases step y v with
        | ub => rfl
        | ok w => simp [Out.bind]

/-- From every idle state an application that keeps to the rules can reach: requests
that the handle tells apart come one after another, there is memory for some of them, and the
application sends. Then each confirmable request that was taken is acknowledged,
each that was taken gets exactly one answer, to its endpoint, with its token, the
code and the payload (or its first block), in the order they came; nothing else is
sent; afterwards the handle is idle with nothing waiting and no record or transaction
lost. Part of the full claim: requests with the same token are not told apart
(`same_token_false`), those not taken are not answered (`unavailable_false`) and
answers can be lost (`busy_lost_false`). -/
theorem answered_partial (past : List Ev) (hpast : History fresh past) (m : List Msg) (s : Sys)
    (hs : run fresh past = .ok (m, s)) (hidle : s.active = false)
    (l : List (Req × Mem)) (hne : taken false l ≠ []) (hd : l.Pairwise fun x y => Distinct x.1 y.1)
    (ho : ∀ x ∈ l, x.1.observe < 2) (e : Env) (he : Good e) (c len : Nat) :
    ∃ t, run s (arrivals l ++ [.send e (some c) len]) =
        .ok (acks (taken false l) ++ due (taken false l) c len, t) ∧
      t.active = false ∧ t.reqs = [] ∧ t.stores = 0 ∧ t.txs = s.txs := by
  have hinv : Inv s := by
    obtain ⟨m', s', hr, hi⟩ := safe_partial past fresh inv_fresh hpast
    rw [hs] at hr
    cases hr
    exact hi
  obtain ⟨u, hu, hui, hua, hux, hur⟩ := accept_all l s [] hinv (fun x => by rw [hidle] at x; cases x) (fun _ => rfl)
    (fun x hx => by cases hx) hd
  rw [hidle] at hu hua hur
  have hact : u.active = true := by
    rw [hua]
    cases hh : taken false l with
    | nil => exact absurd hh hne
    | cons a b => rfl
  obtain ⟨m, t, hs, hi, hta, htr, hm, hhe, htx⟩ := send_inv u hui hact e c len
  rw [hur hact, List.nil_append, answers_due e he (taken false l) (fun q hq => by
    obtain ⟨m, hm⟩ := taken_mem l false q hq
    exact ho _ hm)] at hm htx
  refine ⟨t, ?_, hta, htr, hi.idle hta, by rw [htx, hux]; rfl⟩
  rw [run_append _ _ _ _ _ hu]
  show (send u e (some c) len).bind _ = _
  rw [hs, hm]
  rfl

example : taken false [(exReq 1 [1], plenty), (exReq 3 [3], ⟨true, false, true⟩), (exReq 2 [2], plenty)] ≠ [] ∧
    run fresh (arrivals [(exReq 1 [1], plenty), (exReq 3 [3], ⟨true, false, true⟩), (exReq 2 [2], plenty)] ++
      [.send exEnv (some 69) 100]) = .ok ([.ack 1 7, .ack 2 7, .resp 1 [1] 69 none 64, .resp 2 [2] 69 none 64],
      ⟨false, [], some 0, [], 1, 0, 0⟩) := by
  constructor
  · exact List.cons_ne_nil _ _
  · decide

example : [exReq 1 [1], exReq 2 [2]].Pairwise Distinct := by
  refine List.pairwise_cons.2 ⟨?_, by simp⟩
  intro x hx
  simp only [List.mem_cons, List.not_mem_nil, or_false] at hx
  subst hx
  rintro ⟨h, _⟩
  revert h
  decide

/-- FALSE: every client whose request was accepted gets an answer. Requests are told
apart by their tokens only: of two clients that happen to use the same token only
the second one is answered. -/
theorem same_token_false : ¬ ∀ (l : List Req) (e : Env) (c len : Nat) (m : List Msg) (t : Sys), Good e →
    run fresh (l.map (Ev.request · plenty) ++ [.send e (some c) len]) = .ok (m, t) →
    ∀ q ∈ l, ∃ code o n, Msg.resp q.ep q.token code o n ∈ m := by
  intro h
  obtain ⟨code, o, n, hm⟩ := h [exReq 1 [9], exReq 2 [9]] exEnv 69 10 [.ack 1 7, .ack 2 7, .resp 2 [9] 69 none 10]
    ⟨false, [], some 0, [], 1, 0, 0⟩ exEnv_good (by decide) (exReq 1 [9]) (by simp)
  simp [exReq] at hm

/-- FALSE: a request that cannot be recorded is answered (the documentation promises
5.03). Nothing at all is sent. -/
theorem unavailable_false : ¬ ∀ (q : Req) (m : Mem) (s : Sys), (accept s q m).1 = false →
    (request s q m).1 ≠ [] := by
  intro h
  exact h (exReq 1 [1]) ⟨true, false, true⟩ fresh rfl rfl

/-- FALSE: if sending works otherwise, every waiting client gets its answer. One with
an unfinished block-wise answer does not, and a transaction is lost. -/
theorem busy_lost_false : ¬ ∀ (s t : Sys) (e : Env) (c len : Nat) (m : List Msg), (∀ x, e.tx x = true) →
    (∀ x, e.bw x = true) → send s e (some c) len = .ok (m, t) →
    (∀ x ∈ s.reqs, x.observe < 2 → ∃ o n, Msg.resp x.ep x.token c o n ∈ m) ∧ t.txs = s.txs := by
  intro h
  have := (h ⟨true, [storeOf (exReq 1 [1])], some 0, [0], 1, 1, 0⟩ ⟨false, [], some 0, [], 1, 0, 1⟩
    { exEnv with busy := fun _ => true } 69 100 [] (fun _ => rfl) (fun _ => rfl) (by decide)).2
  cases this

/-- FALSE: the answer to a request that registered the client as an observer says
so. A separate answer never carries the Observe option. -/
theorem separate_observe_false : ¬ ∀ (q : Req) (e : Env) (c len : Nat) (m : List Msg) (t : Sys), Good e →
    q.observe = 0 → run fresh [.request q plenty, .send e (some c) len] = .ok (m, t) →
    ∃ n, Msg.resp q.ep q.token c (some 0) n ∈ m := by
  intro h
  obtain ⟨n, hm⟩ := h { exReq 1 [1] with observe := 0 } exEnv 69 10 [.ack 1 7, .resp 1 [1] 69 none 10]
    ⟨false, [], some 0, [], 1, 0, 0⟩ exEnv_good rfl (by decide)
  simp [exReq] at hm

/-- A notification that was postponed is sent to the observers of the resource at
that endpoint, if the resource still exists; a request with the same token that is
not a notification is answered separately. -/
theorem postponed_notification (e : Env) (x : Store) (c len : Nat) (h : 2 ≤ x.observe) :
    answerOne e x c len = (if e.res x then [.notify x.ep x.uri] else [], 0) := by
  unfold answerOne
  rw [if_neg (by omega)]

example : answerOne exEnv { storeOf (exReq 1 [1]) with observe := 3 } 69 10 = ([.notify 1 [97]], 0) := by decide

end Verif.Separate
