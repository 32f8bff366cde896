import Verif.Trans.Lemmas

/-! C20: confirmable messages are retransmitted with back-off and come to an end. -/

namespace Verif.Trans

open Spec

/-- Invariant of a state: transactions are armed, identities are fresh. -/
structure Good (sec : Nat) (s : St) : Prop where
  inv : Inv sec 0 s.list s.log
  armed : ∀ t ∈ s.list, t.due ≠ none
  old : ∀ id ∈ ids s.list, id < s.nextId
  fresh : ∀ id, s.nextId ≤ id → times s.log id = []

/-- Every (D)TLS endpoint that times out has a peer. -/
def PeersFound : Op → Prop
  | .check _ peer => ∀ e, peer e = true
  | _ => True

theorem TxOk.armed_any {sec now now' : Nat} {log : List Eff} {t : Tx} (h : TxOk sec now log t)
    (hd : t.due ≠ none) : TxOk sec now' log t := by
  obtain ⟨h1, h2, h3, i, last, g1, g2, g3, g4, g5, g6⟩ := h
  refine ⟨h1, h2, h3, i, last, g1, g2, g3, g4, g5, ?_⟩
  rcases g6 with g6 | g6
  · exact Or.inl g6
  · exact absurd g6.1 hd

theorem Inv.armed_any {sec now now' : Nat} {l : List Tx} {log : List Eff} (h : Inv sec now l log)
    (hd : ∀ t ∈ l, t.due ≠ none) : Inv sec now' l log :=
  ⟨h.nodup, fun t ht => (h.ok t ht).armed_any (hd t ht), h.allowed, h.done⟩

theorem fire_id (now : Nat) (t : Tx) : (fire now t).id = t.id ∧ (fire now t).mid = t.mid := by
  unfold fire; split
  · split <;> exact ⟨rfl, rfl⟩
  · exact ⟨rfl, rfl⟩

theorem ids_fire (now : Nat) (l : List Tx) : ids (l.map (fire now)) = ids l := by
  simp only [ids, List.map_map]
  apply List.map_congr_left
  intro t _
  exact (fire_id now t).1

theorem fire_ok {sec now : Nat} {log : List Eff} {t : Tx} (h : TxOk sec 0 log t) (hd : t.due ≠ none) :
    TxOk sec now log (fire now t) := by
  obtain ⟨h1, h2, h3, i, last, g1, g2, g3, g4, g5, g6⟩ := h
  rcases g6 with g6 | g6
  · unfold fire
    rw [g6]
    dsimp only
    split
    · rename_i hle
      exact ⟨h1, h2, h3, i, last, g1, g2, g3, g4, g5, Or.inr ⟨rfl, hle⟩⟩
    · exact ⟨h1, h2, h3, i, last, g1, g2, g3, g4, g5, Or.inl g6⟩
  · exact absurd g6.1 hd

theorem fired_inv {sec now : Nat} {s : St} (h : Good sec s) : Inv sec now ([] ++ s.list.map (fire now)) s.log := by
  rw [List.nil_append]
  refine ⟨by rw [ids_fire]; exact h.inv.nodup, ?_, h.inv.allowed, ?_⟩
  · intro t ht
    obtain ⟨x, hx, rfl⟩ := List.mem_map.mp ht
    exact fire_ok (h.inv.ok x hx) (h.armed x hx)
  · rw [ids_fire]; exact h.inv.done

theorem Good.remove {sec : Nat} {s : St} (h : Good sec s) {l : List Tx} (hs : l.Sublist s.list)
    (eff : List Eff) (hq : ∀ e ∈ eff, ∀ i x, e ≠ .sent i x) (hto : ∀ id mid, .timeout id mid ∉ eff) :
    Good sec { s with list := l, log := s.log ++ eff } := by
  refine ⟨h.inv.sub hs eff hq (fun id mid hm => absurd hm (hto id mid)), ?_, ?_, ?_⟩
  · intro t ht; exact h.armed t (hs.subset ht)
  · intro id hid; exact h.old id ((hs.map Tx.id).subset hid)
  · intro id hid
    show times (s.log ++ eff) id = []
    rw [times_quiet _ _ _ hq]; exact h.fresh id hid

theorem Good.drop {sec : Nat} {s : St} (h : Good sec s) {l : List Tx} (hs : l.Sublist s.list) :
    Good sec { s with list := l } := by
  have := h.remove hs [] (by simp) (by simp)
  simpa using this

theorem sendNew_eq (sec rnd now mid ep : Nat) (con secured : Bool) (s : St) (h : ∀ id ∈ ids s.list, id < s.nextId) :
    sendNew sec rnd now (create s mid ep con secured) s.nextId =
      { list := s.list ++ (if con then [⟨s.nextId, mid, ep, con, secured, 0, firstInterval sec rnd,
          some (now + firstInterval sec rnd)⟩] else [])
        nextId := s.nextId + 1
        log := s.log ++ [.sent s.nextId now] } := by
  unfold sendNew create
  simp only [List.filterMap_append, St.mk.injEq, and_true]
  congr 1
  · have key : ∀ l : List Tx, (∀ id ∈ ids l, id < s.nextId) → l.filterMap (fun t => if t.id = s.nextId then
        (if t.con = true then some (arm sec rnd now t) else none) else some t) = l := by
      intro l
      induction l with
      | nil => intro _; rfl
      | cons t r ih =>
        intro hl
        have h1 : t.id < s.nextId := hl t.id (by simp [ids])
        rw [List.filterMap_cons, if_neg (by omega), ih (fun id hid => hl id (by rw [ids_cons]; simp [hid]))]
    exact key s.list h
  · cases con <;> simp [arm]

/-- Every step keeps the invariant. -/
theorem exec_good (sec now : Nat) (s : St) (o : Op) (h : Good sec s) (hp : PeersFound o) :
    Good sec (exec sec now s o) := by
  cases o with
  | start rnd mid ep con secured =>
    simp only [exec]
    rw [sendNew_eq _ _ _ _ _ _ _ _ h.old]
    have hnot : s.nextId ∉ ids s.list := fun hm => Nat.lt_irrefl _ (h.old _ hm)
    have hfi : 2 * sec ≤ firstInterval sec rnd ∧ firstInterval sec rnd ≤ 3 * sec := by
      have := Nat.mod_lt rnd (show 0 < sec + 1 by omega)
      unfold firstInterval; omega
    have ht0 := h.fresh s.nextId (Nat.le_refl _)
    have hother : ∀ x ∈ s.list, TxOk sec 0 (s.log ++ [.sent s.nextId now]) x := by
      intro x hx
      refine (h.inv.ok x hx).congr ?_
      rw [times_sent, if_neg]
      intro e; exact hnot (e ▸ List.mem_map_of_mem hx)
    have hall : ∀ id, Allowed sec (times (s.log ++ [.sent s.nextId now]) id) := by
      intro id
      rw [times_sent]
      split
      · rename_i e
        rw [e, ht0]
        exact ⟨by simp, 2 * sec, by omega, by omega, trivial⟩
      · exact h.inv.allowed id
    have hdone : ∀ id mid, .timeout id mid ∈ s.log ++ [Eff.sent s.nextId now] →
        id ≠ s.nextId ∧ (times (s.log ++ [.sent s.nextId now]) id).length = 4 ∧ id ∉ ids s.list := by
      intro id m hm
      have hm : .timeout id m ∈ s.log := by simpa using hm
      obtain ⟨g1, g2⟩ := h.inv.done id m hm
      have hne : id ≠ s.nextId := by
        intro e; rw [e, ht0] at g1; simp at g1
      rw [times_sent, if_neg hne]
      exact ⟨hne, g1, g2⟩
    have hfresh : ∀ id, s.nextId + 1 ≤ id → times (s.log ++ [.sent s.nextId now]) id = [] := by
      intro id hid
      rw [times_sent, if_neg (by omega)]
      exact h.fresh id (by omega)
    cases con with
    | false =>
      simp only [Bool.false_eq_true, if_false, List.append_nil]
      exact ⟨⟨h.inv.nodup, hother, hall, fun id m hm => (hdone id m hm).2⟩, h.armed,
        fun id hid => by have := h.old id hid; show id < s.nextId + 1; omega, hfresh⟩
    | true =>
      simp only [if_true]
      refine ⟨⟨?_, ?_, hall, ?_⟩, ?_, ?_, hfresh⟩
      · rw [ids_append]
        refine List.nodup_append.mpr ⟨h.inv.nodup, by simp [ids], ?_⟩
        intro a ha b hb e
        simp [ids] at hb
        exact hnot (by rw [← hb, ← e]; exact ha)
      · intro x hx
        rcases List.mem_append.mp hx with hx | hx
        · exact hother x hx
        · simp at hx
          subst hx
          refine ⟨rfl, by show 0 < 4; omega, ?_, firstInterval sec rnd, now, hfi.1, hfi.2, ?_, ?_, by simp, Or.inl rfl⟩
          · show (times _ s.nextId).length = _
            rw [times_sent, if_pos rfl, ht0]; rfl
          · show Backoff _ (times _ s.nextId)
            rw [times_sent, if_pos rfl, ht0]; trivial
          · show (times _ s.nextId).getLast? = _
            rw [times_sent, if_pos rfl, ht0]; rfl
      · intro id m hm
        obtain ⟨g1, g2, g3⟩ := hdone id m hm
        refine ⟨g2, ?_⟩
        rw [ids_append]
        simp only [List.mem_append, not_or]
        exact ⟨g3, by simp [ids]; exact g1⟩
      · intro t ht
        rcases List.mem_append.mp ht with ht | ht
        · exact h.armed t ht
        · simp at ht; subst ht; simp
      · intro id hid
        rw [ids_append] at hid
        show id < s.nextId + 1
        rcases List.mem_append.mp hid with hid | hid
        · have := h.old id hid; omega
        · simp [ids] at hid; omega
  | recv mid =>
    simp only [exec, received]
    split
    · exact h.drop List.filter_sublist
    · exact h
  | clear id => exact h.drop List.filter_sublist
  | freeEp ep =>
    exact h.remove (others_sub ep s.list) (closing ep s.list) (quiet_closing _ _) (closing_no_timeout _ _)
  | check rnd peer =>
    obtain ⟨i1, i2, i3, i4, i5, i6, i7⟩ := walk_ok sec rnd now peer hp [] (s.list.map (fire now)) s.log (fired_inv h) (by simp)
    refine ⟨i1.armed_any i2, i2, ?_, ?_⟩
    · intro id hid
      have := i3 id hid
      rw [List.nil_append, ids_fire] at this
      exact h.old id this
    · intro id hid
      show times (walk sec rnd now peer [] (s.list.map (fire now)) s.log).2 id = []
      rw [i4 id, h.fresh id hid]
      intro t ht e
      obtain ⟨x, hx, rfl⟩ := List.mem_map.mp ht
      rw [(fire_id now x).1] at e
      have := h.old x.id (List.mem_map_of_mem hx)
      have : s.nextId ≤ id := hid
      omega

theorem init_good (sec : Nat) : Good sec init :=
  ⟨⟨by simp [ids, init], by simp [init], fun id => ⟨by simp [times, init], 2 * sec, by omega, by omega, by simp [times, init, Backoff]⟩,
    by simp [init]⟩, by simp [init], by simp [ids, init], by simp [times, init]⟩

theorem run_good (sec : Nat) (h : List (Nat × Op)) : ∀ (s : St), Good sec s → (∀ o ∈ h, PeersFound o.2) →
    Good sec (run sec s h) := by
  induction h with
  | nil => intro s hs _; exact hs
  | cons o h ih =>
    intro s hs hp
    exact ih _ (exec_good sec o.1 s o.2 hs (hp o (by simp))) (fun x hx => hp x (by simp [hx]))

/-- C20: in every history every message is transmitted at most four times, and the
transmissions are separated by an initial interval of two to three seconds that
doubles each time. -/
theorem transmissions_allowed (sec : Nat) (h : List (Nat × Op)) (hp : ∀ o ∈ h, PeersFound o.2) (id : Nat) :
    Allowed sec (times (run sec init h).log id) :=
  (run_good sec h init (init_good sec) hp).inv.allowed id

/-- C20: whoever is told about a timeout was told after the fourth transmission,
and the transaction is gone. -/
theorem timeout_after_four (sec : Nat) (h : List (Nat × Op)) (hp : ∀ o ∈ h, PeersFound o.2) (id mid : Nat)
    (ht : .timeout id mid ∈ (run sec init h).log) :
    (times (run sec init h).log id).length = 4 ∧ id ∉ ids (run sec init h).list :=
  (run_good sec h init (init_good sec) hp).inv.done id mid ht

/-- Transactions that are not open are not transmitted by any later step, except
when a new one is started. -/
theorem exec_not_open (sec now : Nat) (s : St) (o : Op) (h : Good sec s) (hp : PeersFound o) (id : Nat)
    (hid : id ∉ ids s.list) (hold : id < s.nextId) :
    id ∉ ids (exec sec now s o).list ∧ id < (exec sec now s o).nextId ∧
      times (exec sec now s o).log id = times s.log id := by
  cases o with
  | start rnd mid ep con secured =>
    simp only [exec]
    rw [sendNew_eq _ _ _ _ _ _ _ _ h.old]
    refine ⟨?_, by show id < s.nextId + 1; omega, ?_⟩
    · rw [ids_append]
      simp only [List.mem_append, not_or]
      refine ⟨hid, ?_⟩
      cases con <;> simp [ids]; omega
    · show times (s.log ++ [.sent s.nextId now]) id = _
      rw [times_sent, if_neg (by omega)]
  | recv mid =>
    simp only [exec, received]
    split
    · exact ⟨fun hm => hid ((List.filter_sublist.map Tx.id).subset hm), hold, rfl⟩
    · exact ⟨hid, hold, rfl⟩
  | clear i => exact ⟨fun hm => hid ((List.filter_sublist.map Tx.id).subset hm), hold, rfl⟩
  | freeEp ep =>
    refine ⟨fun hm => hid (((others_sub ep s.list).map Tx.id).subset hm), hold, ?_⟩
    show times (s.log ++ closing ep s.list) id = _
    rw [times_quiet _ _ _ (quiet_closing _ _)]
  | check rnd peer =>
    obtain ⟨i1, i2, i3, i4, i5, i6, i7⟩ := walk_ok sec rnd now peer hp [] (s.list.map (fire now)) s.log (fired_inv h) (by simp)
    refine ⟨fun hm => ?_, hold, ?_⟩
    · have := i3 id hm
      rw [List.nil_append, ids_fire] at this
      exact hid this
    · refine i4 id ?_
      intro t ht e
      obtain ⟨x, hx, rfl⟩ := List.mem_map.mp ht
      rw [(fire_id now x).1] at e
      exact absurd (e ▸ List.mem_map_of_mem hx) hid

/-- C20: once a transaction is gone (acknowledged, cleared, timed out), its message
is never transmitted again, whatever happens later. -/
theorem gone_stays_gone (sec : Nat) (h : List (Nat × Op)) : ∀ (s : St), Good sec s →
    (∀ o ∈ h, PeersFound o.2) → ∀ id, id ∉ ids s.list → id < s.nextId →
      times (run sec s h).log id = times s.log id ∧ id ∉ ids (run sec s h).list := by
  induction h with
  | nil => intro s _ _ id hid _; exact ⟨rfl, hid⟩
  | cons o h ih =>
    intro s hs hp id hid hold
    obtain ⟨g1, g2, g3⟩ := exec_not_open sec o.1 s o.2 hs (hp o (by simp)) id hid hold
    obtain ⟨k1, k2⟩ := ih _ (exec_good sec o.1 s o.2 hs (hp o (by simp))) (fun x hx => hp x (by simp [hx])) id g1 g2
    exact ⟨by rw [run, k1, g3], k2⟩

/-- C20: an acknowledgement removes the transaction with its message id. -/
theorem acknowledged_removed (s : St) (t : Tx)
    (hf : s.list.find? (fun x => x.mid = t.mid) = some t) : t.id ∉ ids (received s t.mid).list := by
  unfold received
  rw [hf]
  simp only [clear, ids, List.mem_map, List.mem_filter, not_exists, not_and]
  intro x ⟨_, hx⟩ e
  simp at hx
  exact hx e

/-- C20, progress: a timer event at or after the time a transaction is due either
transmits its message once more, doubling the interval, or ends the transaction
and tells the application. -/
theorem due_step (sec rnd now : Nat) (peer : Nat → Bool) (hp : ∀ e, peer e = true) (s : St) (h : Good sec s)
    (t : Tx) (ht : t ∈ s.list) (d : Nat) (hd : t.due = some d) (hnow : d ≤ now) :
    (∃ t' ∈ (check sec rnd now peer s).list, t'.id = t.id ∧ t'.counter = t.counter + 1 ∧
      times (check sec rnd now peer s).log t.id = times s.log t.id ++ [now] ∧
      ∃ i, 2 * sec ≤ i ∧ i ≤ 3 * sec ∧ t'.due = some (now + i * 2 ^ t'.counter)) ∨
    (t.id ∉ ids (check sec rnd now peer s).list ∧
      (.timeout t.id t.mid ∈ (check sec rnd now peer s).log ∨ .closed t.id t.mid ∈ (check sec rnd now peer s).log)) := by
  obtain ⟨i1, i2, i3, i4, i5, i6, i7⟩ := walk_ok sec rnd now peer hp [] (s.list.map (fire now)) s.log (fired_inv h) (by simp)
  have hfd : (fire now t).due = none := by
    unfold fire; rw [hd]; dsimp only; rw [if_pos hnow]
  have hmem : fire now t ∈ s.list.map (fire now) := List.mem_map_of_mem ht
  by_cases hin : t.id ∈ ids (check sec rnd now peer s).list
  · left
    have hti := i5 (fire now t) hmem hfd (by rw [(fire_id now t).1]; exact hin)
    rw [(fire_id now t).1] at hti
    simp only [ids, List.mem_map] at hin
    obtain ⟨t', ht', he⟩ := hin
    obtain ⟨o1, o2, o3, i, last, g1, g2, g3, g4, g5, g6⟩ := i1.ok t' ht'
    rw [he, hti] at o3 g4
    have := (h.inv.ok t ht).len
    have hl : last = now := by simp at g4; exact g4.symm
    refine ⟨t', ht', he, by simp at o3; omega, hti, i, g1, g2, ?_⟩
    rcases g6 with g6 | g6
    · rw [g6, hl, g5]
    · exact absurd g6.1 (i2 t' ht')
  · right
    refine ⟨hin, ?_⟩
    have := i7 (fire now t) (by rw [List.nil_append]; exact hmem)
    rw [(fire_id now t).1, (fire_id now t).2] at this
    rcases this with h1 | h1
    · exact absurd h1 hin
    · exact h1

/-- The states after the checks of `cs`, each with the random value `0`. -/
def checks (sec : Nat) (s : St) (cs : List Nat) : St :=
  cs.foldl (fun s now => check sec 0 now (fun _ => true) s) s

/-- When a transaction is due at the latest. -/
theorem due_bound {sec : Nat} {s : St} (h : Good sec s) {t : Tx} (ht : t ∈ s.list) :
    ∃ last d, (times s.log t.id).getLast? = some last ∧ t.due = some d ∧ d ≤ last + 24 * sec := by
  obtain ⟨o1, o2, o3, i, last, g1, g2, g3, g4, g5, g6⟩ := h.inv.ok t ht
  rcases g6 with g6 | g6
  · refine ⟨last, _, g4, g6, ?_⟩
    rw [g5]
    have h3 : 2 ^ t.counter ≤ 2 ^ 3 := Nat.pow_le_pow_right (by decide) (by omega)
    have := Nat.mul_le_mul g2 h3
    omega
  · exact absurd g6.1 (h.armed t ht)

/-- C20, termination: an open transaction is gone after four timer events that come
at least 24 seconds (the longest interval) after the last transmission and after
each other, whatever else happens in between being only further removals; at
every such event its message is transmitted or the application is told. -/
theorem ends_after_four_checks (sec : Nat) (s : St) (h : Good sec s) (id : Nat) (c1 c2 c3 c4 : Nat)
    (h1 : ∀ last, (times s.log id).getLast? = some last → last + 24 * sec ≤ c1)
    (h2 : c1 + 24 * sec ≤ c2) (h3 : c2 + 24 * sec ≤ c3) (h4 : c3 + 24 * sec ≤ c4) (hold : id < s.nextId) :
    id ∉ ids (checks sec s [c1, c2, c3, c4]).list := by
  -- one event
  have step : ∀ (s : St), Good sec s → id < s.nextId → ∀ c,
      (∀ last, (times s.log id).getLast? = some last → last + 24 * sec ≤ c) →
      Good sec (check sec 0 c (fun _ => true) s) ∧ id < (check sec 0 c (fun _ => true) s).nextId ∧
      (id ∈ ids (check sec 0 c (fun _ => true) s).list →
        times (check sec 0 c (fun _ => true) s).log id = times s.log id ++ [c] ∧ id ∈ ids s.list) := by
    intro s hs hold c hc
    have hg := exec_good sec c s (.check 0 (fun _ => true)) hs (fun _ => rfl)
    refine ⟨hg, hold, ?_⟩
    intro hin
    by_cases hin0 : id ∈ ids s.list
    · simp only [ids, List.mem_map] at hin0
      obtain ⟨t, ht, rfl⟩ := hin0
      obtain ⟨last, d, e1, e2, e3⟩ := due_bound hs ht
      have := hc last e1
      rcases due_step sec 0 c (fun _ => true) (fun _ => rfl) s hs t ht d e2 (by omega) with ⟨t', _, _, _, e, _⟩ | ⟨hn, _⟩
      · exact ⟨e, List.mem_map_of_mem ht⟩
      · exact absurd hin hn
    · obtain ⟨g1, _, _⟩ := exec_not_open sec c s (.check 0 (fun _ => true)) hs (fun _ => rfl) id hin0 hold
      exact absurd hin g1
  intro hin
  obtain ⟨a1, b1, k1⟩ := step s h hold c1 h1
  have nx : ∀ {s : St} {c c' : Nat}, c + 24 * sec ≤ c' → times s.log id = times s.log id →
      ∀ l, times s.log id = l ++ [c] → ∀ last, (times s.log id).getLast? = some last → last + 24 * sec ≤ c' := by
    intro s c c' hc _ l e last hl
    rw [e] at hl
    simp at hl
    omega
  -- walk backwards: membership at the end gives membership before
  simp only [checks, List.foldl_cons, List.foldl_nil] at hin
  by_cases m1 : id ∈ ids (check sec 0 c1 (fun _ => true) s).list
  · obtain ⟨t1, m0⟩ := k1 m1
    obtain ⟨a2, b2, k2⟩ := step _ a1 b1 c2 (nx h2 rfl _ t1)
    by_cases m2 : id ∈ ids (check sec 0 c2 (fun _ => true) (check sec 0 c1 (fun _ => true) s)).list
    · obtain ⟨t2, _⟩ := k2 m2
      obtain ⟨a3, b3, k3⟩ := step _ a2 b2 c3 (nx h3 rfl _ t2)
      by_cases m3 : id ∈ ids (check sec 0 c3 (fun _ => true) (check sec 0 c2 (fun _ => true) (check sec 0 c1 (fun _ => true) s))).list
      · obtain ⟨t3, _⟩ := k3 m3
        obtain ⟨a4, b4, k4⟩ := step _ a3 b3 c4 (nx h4 rfl _ t3)
        obtain ⟨t4, _⟩ := k4 hin
        have hl := (a4.inv.allowed id).1
        have hpos : 0 < (times s.log id).length := by
          simp only [ids, List.mem_map] at m0
          obtain ⟨t, ht, rfl⟩ := m0
          rw [(h.inv.ok t ht).len]; omega
        rw [t4, t3, t2, t1] at hl
        simp only [List.length_append, List.length_cons, List.length_nil] at hl
        omega
      · exact (exec_not_open sec c4 _ (.check 0 (fun _ => true)) a3 (fun _ => rfl) id m3 b3).1 hin
    · have g := exec_not_open sec c3 _ (.check 0 (fun _ => true)) a2 (fun _ => rfl) id m2 b2
      exact (exec_not_open sec c4 _ (.check 0 (fun _ => true)) (exec_good sec c3 _ (.check 0 (fun _ => true)) a2 (fun _ => rfl))
        (fun _ => rfl) id g.1 g.2.1).1 hin
  · have g2 := exec_not_open sec c2 _ (.check 0 (fun _ => true)) a1 (fun _ => rfl) id m1 b1
    have a2 := exec_good sec c2 _ (.check 0 (fun _ => true)) a1 (fun _ => rfl)
    have g3 := exec_not_open sec c3 _ (.check 0 (fun _ => true)) a2 (fun _ => rfl) id g2.1 g2.2.1
    have a3 := exec_good sec c3 _ (.check 0 (fun _ => true)) a2 (fun _ => rfl)
    exact (exec_not_open sec c4 _ (.check 0 (fun _ => true)) a3 (fun _ => rfl) id g3.1 g3.2.1).1 hin

/-! ### Examples -/

set_option linter.unusedSimpArgs false

/-- A message that is never acknowledged: four transmissions at 0, 2, 6 and 14
seconds (one tick per second, smallest first interval), then the timeout. -/
example : (run 1 init [(0, .start 0 7 1 true false), (2, .check 0 fun _ => true), (6, .check 0 fun _ => true),
    (14, .check 0 fun _ => true), (29, .check 0 fun _ => true), (30, .check 0 fun _ => true)]) =
    ⟨[], 1, [.sent 0 0, .sent 0 2, .sent 0 6, .sent 0 14, .obsRemoved 1, .timeout 0 7]⟩ := by simp [run, exec, init, sendNew, create, arm, firstInterval, check, fire, walk, maxRetransmit, others, closing, received, clear, times, ids]

/-- An acknowledged message. -/
example : times (run 1 init [(0, .start 0 7 1 true false), (1, .recv 7), (2, .check 0 fun _ => true)]).log 0 = [0] := by
  simp [run, exec, init, sendNew, create, arm, firstInterval, check, fire, walk, maxRetransmit, others, closing, received, clear, times, ids]

/-- Two transactions of one secured endpoint: the timeout of the first closes the
connection and ends both. -/
example : (run 1 init [(0, .start 0 7 1 true true), (1, .start 1 8 1 true true), (2, .check 0 fun _ => true),
    (6, .check 0 fun _ => true), (14, .check 0 fun _ => true), (30, .check 0 fun _ => true)]).list = [] := by
  simp [run, exec, init, sendNew, create, arm, firstInterval, check, fire, walk, maxRetransmit, others, closing, received, clear, times, ids]

/-! ### Where the property is false -/

/-- A message of another endpoint, of whatever type, that happens to carry the same
message id ends the transaction: nothing is acknowledged, yet the message is not
retransmitted and nobody is told of a timeout.  `received` does not look at the
sender. -/
theorem foreign_message_ends_false :
    (run 1 init [(0, .start 0 7 1 true false), (1, .recv 7), (2, .check 0 fun _ => true), (60, .check 0 fun _ => true)])
      = ⟨[], 1, [.sent 0 0]⟩ := by simp [run, exec, init, sendNew, create, arm, firstInterval, check, fire, walk, maxRetransmit, others, closing, received, clear, times, ids]

/-- A secured transaction whose peer is unknown to the TLS layer is not removed by
its timeout, and times out again at every later timer event. -/
theorem secured_without_peer_false :
    let s := run 1 init [(0, .start 0 7 1 true true), (2, .check 0 fun _ => true), (6, .check 0 fun _ => true),
      (14, .check 0 fun _ => true), (30, .check 0 fun _ => false), (31, .check 0 fun _ => false)]
    ids s.list = [0] ∧ (s.log.filter fun e => e = .timeout 0 7).length = 2 := by simp [run, exec, init, sendNew, create, arm, firstInterval, check, fire, walk, maxRetransmit, others, closing, received, clear, times, ids]

/-- A transaction that was created and is not sent yet counts as expired: a timer
event transmits it (api/oc_client_api.c creates the transaction in
`oc_init_post` and sends it in `oc_do_post`). -/
theorem unsent_is_transmitted_false :
    (check 1 0 5 (fun _ => true) (create init 7 1 true false)).log = [.sent 0 5] := by simp [run, exec, init, sendNew, create, arm, firstInterval, check, fire, walk, maxRetransmit, others, closing, received, clear, times, ids]

end Verif.Trans
