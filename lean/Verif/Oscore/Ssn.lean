import Verif.Oscore.Props

/-!
Sender sequence numbers across crashes (C35).
-/

namespace Verif.Oscore

/-- A history in which every message is protected while fewer than 160 numbers
have been taken since the number that is in storage, and the credential is not
provisioned a second time. -/
def Spec.Timely (s : St) : List Op → Prop
  | [] => True
  | op :: ops =>
    (match op with
      | .send | .mcast => ∀ n, s.ssn = some n → n < s.stored + 160
      | .reprovision => False
      | _ => True) ∧ Spec.Timely (step s op) ops

/-- Every number used is below the one in memory, and below the one a restart
would begin with. -/
structure Fresh (s : St) : Prop where
  link : s.link = none
  nodup : s.used.Nodup
  mem : ∀ n, s.ssn = some n → ∀ u ∈ s.used, u < n
  disk : ∀ u ∈ s.used, u < s.stored + 160
  le : ∀ n, s.ssn = some n → s.stored ≤ n

theorem fresh_init : Fresh St.init :=
  ⟨rfl, by simp [St.init], by simp [St.init], by simp [St.init], by
    intro n h; cases h; exact Nat.le_refl _⟩

theorem fresh_use (s : St) (h : Fresh s) (n : Nat) (hn : s.ssn = some n) (hlt : n < s.stored + 160)
    (pend : Bool) : Fresh { s with ssn := some (n + 1), used := n :: s.used, pending := pend } := by
  refine ⟨h.link, ?_, ?_, ?_, ?_⟩
  · refine List.nodup_cons.mpr ⟨?_, h.nodup⟩
    intro hm
    exact Nat.lt_irrefl _ (h.mem n hn n hm)
  · intro m hm u hu
    cases hm
    rcases List.mem_cons.mp hu with rfl | hu
    · omega
    · have := h.mem n hn u hu; omega
  · intro u hu
    rcases List.mem_cons.mp hu with rfl | hu
    · exact hlt
    · exact h.disk u hu
  · intro m hm
    cases hm
    have := h.le n hn
    show s.stored ≤ n + 1
    omega

theorem fresh_doSave (s : St) (h : Fresh s) (ok : Bool) : Fresh (doSave s ok) := by
  unfold doSave
  cases hn : s.ssn with
  | none => exact h
  | some n =>
    cases ok with
    | false => exact h
    | true =>
      have hl : s.link.getD n = n := by rw [h.link]; rfl
      simp only [hl, if_true]
      refine ⟨h.link, h.nodup, (fun m hm => by cases hm; exact h.mem n hn), ?_, ?_⟩
      · intro u hu
        have := h.mem n hn u hu
        show u < n + 160
        omega
      · intro m hm
        cases hm
        exact Nat.le_refl _

theorem fresh_step (s : St) (op : Op) (h : Fresh s) (ht : Spec.Timely s [op]) : Fresh (step s op) := by
  cases op with
  | send =>
    show Fresh (match s.ssn with | none => s | some n => _)
    cases hn : s.ssn with
    | none => exact h
    | some n => exact fresh_use s h n hn (ht.1 n hn) _
  | mcast =>
    show Fresh (match s.ssn with | none => s | some n => _)
    cases hn : s.ssn with
    | none => exact h
    | some n => exact fresh_use s h n hn (ht.1 n hn) s.pending
  | refused =>
    show Fresh (match s.ssn with | none => s | some n => _)
    cases hn : s.ssn with
    | none => exact h
    | some n =>
      refine ⟨h.link, h.nodup, ?_, h.disk, ?_⟩
      · intro m hm u hu; cases hm
        have := h.mem n hn u hu; omega
      · intro m hm; cases hm
        have := h.le n hn
        show s.stored ≤ n + 1
        omega
  | save ok =>
    show Fresh (match s.ssn with | none => s | some n => _)
    cases hn : s.ssn with
    | none => exact h
    | some n =>
      dsimp only
      split
      · have := fresh_doSave s h ok
        exact ⟨this.link, this.nodup, this.mem, this.disk, this.le⟩
      · exact h
  | saveOther ok => exact fresh_doSave s h ok
  | crash =>
    exact ⟨rfl, h.nodup, (by intro n hn; cases hn), h.disk, (by intro n hn; cases hn)⟩
  | boot =>
    show Fresh (match s.ssn with | some n => s | none => _)
    cases hn : s.ssn with
    | some n => exact h
    | none =>
      refine ⟨h.link, h.nodup, ?_, h.disk, ?_⟩
      · intro m hm u hu; cases hm
        exact h.disk u hu
      · intro m hm; cases hm
        exact Nat.le_add_right _ _
  | reprovision => exact absurd ht.1 (fun h => h)

theorem timely_cons (s : St) (op : Op) (ops : List Op) (h : Spec.Timely s (op :: ops)) :
    Spec.Timely s [op] ∧ Spec.Timely (step s op) ops := ⟨⟨h.1, trivial⟩, h.2⟩

theorem fresh_run (ops : List Op) (s : St) (h : Fresh s) (ht : Spec.Timely s ops) : Fresh (run s ops) := by
  induction ops generalizing s with
  | nil => exact h
  | cons op ops ih =>
    obtain ⟨h1, h2⟩ := timely_cons s op ops ht
    exact ih (step s op) (fresh_step s op h h1) h2

/-- Full statement of C35: `(run St.init ops).used.Nodup` for every history
`ops`.  It is false (see the witnesses below).  What holds: no number is used
twice in any history, with crashes at any point and saves that fail, in which
every message is protected while the number in memory is less than 160 above
the number in storage.  Missing: histories in which saves are late. -/
theorem no_reuse_partial (ops : List Op) (ht : Spec.Timely St.init ops) :
    (run St.init ops).used.Nodup := (fresh_run ops St.init fresh_init ht).nodup

/-- Conditions on the schedule alone, without looking at the numbers: every save
succeeds, no message is protected after a start before a save is done, at most
128 messages are protected while a scheduled save waits, and only unicast
requests with a client callback and responses are protected.  `booting` and `c`
count along. -/
def Spec.Schedule (booting : Bool) (c : Nat) (s : St) : List Op → Prop
  | [] => True
  | .send :: ops => booting = false ∧ (s.pending = true → c < 128) ∧
      Spec.Schedule false (if s.pending then c + 1 else 0) (step s .send) ops
  | .save ok :: ops => ok = true ∧
      (if s.pending = true then Spec.Schedule false 0 (step s (.save ok)) ops
       else Spec.Schedule booting c (step s (.save ok)) ops)
  | .saveOther ok :: ops => ok = true ∧ Spec.Schedule false 0 (step s (.saveOther ok)) ops
  | .crash :: ops => Spec.Schedule false 0 (step s .crash) ops
  | .boot :: ops => s.ssn = none ∧ Spec.Schedule true 0 (step s .boot) ops
  | .refused :: _ => False
  | .mcast :: _ => False
  | .reprovision :: _ => False

/-- How far the number in memory can be ahead of the one in storage. -/
def Lag (booting : Bool) (c : Nat) (s : St) : Prop :=
  s.link = none ∧ ∀ n, s.ssn = some n →
    (if booting then s.pending = true ∧ n = s.stored + 160
     else s.stored ≤ n ∧ (s.pending = false → n / 32 = s.stored / 32) ∧
       (s.pending = true → n ≤ s.stored + 32 + c ∧ c ≤ 128))

theorem schedule_timely (ops : List Op) (booting : Bool) (c : Nat) (s : St) (hl : Lag booting c s)
    (h : Spec.Schedule booting c s ops) : Spec.Timely s ops := by
  induction ops generalizing booting c s with
  | nil => trivial
  | cons op ops ih =>
    obtain ⟨hlink, hl⟩ := hl
    cases op with
    | send =>
      obtain ⟨hb, hc, hs⟩ := h
      subst hb
      refine ⟨?_, ?_⟩
      · intro n hn
        obtain ⟨h1, h2, h3⟩ := hl n hn
        cases hp : s.pending with
        | true => have := h3 hp; have := hc hp; omega
        | false => have := h2 hp; omega
      · refine ih false _ _ ?_ hs
        cases hn : s.ssn with
        | none =>
          have e : step s .send = s := by simp only [step, hn]
          rw [e]
          refine ⟨hlink, ?_⟩
          intro n hn'; rw [hn] at hn'; cases hn'
        | some n =>
          obtain ⟨h1, h2, h3⟩ := hl n hn
          have e : step s .send = ⟨some (n + 1), s.link, s.stored,
              s.pending || ((n + 1) % writeFreq == 0), n :: s.used⟩ := by
            simp only [step, hn]
          rw [e]
          refine ⟨hlink, ?_⟩
          intro m hm
          cases hm
          show s.stored ≤ n + 1 ∧ ((s.pending || ((n + 1) % 32 == 0)) = false → _) ∧
            ((s.pending || ((n + 1) % 32 == 0)) = true → _)
          refine ⟨by omega, ?_, ?_⟩
          · intro hp
            rw [Bool.or_eq_false_iff] at hp
            have := h2 hp.1
            have h5 : (n + 1) % 32 ≠ 0 := by simpa using hp.2
            show (n + 1) / 32 = s.stored / 32
            omega
          · intro hp
            show n + 1 ≤ s.stored + 32 + _ ∧ _
            cases hp' : s.pending with
            | true =>
              have := h3 hp'
              have := hc hp'
              simp only [if_true]
              omega
            | false =>
              have := h2 hp'
              simp only [Bool.false_eq_true, if_false]
              omega
    | save ok =>
      obtain ⟨rfl, hs⟩ := h
      refine ⟨trivial, ?_⟩
      cases hn : s.ssn with
      | none =>
        have e : step s (.save true) = s := by simp only [step, hn]
        rw [e] at hs ⊢
        split at hs
        · refine ih false 0 s ⟨hlink, ?_⟩ hs
          intro n hn'; rw [hn] at hn'; cases hn'
        · exact ih booting c s ⟨hlink, hl⟩ hs
      | some n =>
        split at hs
        next hp =>
          have hl' : s.link.getD n = n := by rw [hlink]; rfl
          have e : step s (.save true) = { s with stored := n, pending := false } := by
            simp only [step, hn, hp, doSave, if_true, hl']
          rw [e] at hs ⊢
          refine ih false 0 _ ⟨hlink, ?_⟩ hs
          intro m hm
          have : some n = some m := hn.symm.trans hm
          cases this
          exact ⟨Nat.le_refl _, fun _ => rfl, fun h => by cases h⟩
        next hp =>
          have e : step s (.save true) = s := by
            simp only [step, hn]
            rw [if_neg hp]
          rw [e] at hs ⊢
          exact ih booting c s ⟨hlink, hl⟩ hs
    | saveOther ok =>
      obtain ⟨rfl, hs⟩ := h
      refine ⟨trivial, ?_⟩
      refine ih false 0 _ ?_ hs
      cases hn : s.ssn with
      | none =>
        have e : step s (.saveOther true) = s := by simp only [step, doSave, hn]
        rw [e]
        refine ⟨hlink, ?_⟩
        intro n hn'; rw [hn] at hn'; cases hn'
      | some n =>
        have hl' : s.link.getD n = n := by rw [hlink]; rfl
        have e : step s (.saveOther true) = { s with stored := n } := by
          simp only [step, hn, doSave, if_true, hl']
        rw [e]
        refine ⟨hlink, ?_⟩
        intro m hm
        have : some n = some m := hn.symm.trans hm
        cases this
        refine ⟨Nat.le_refl _, fun _ => rfl, fun _ => ?_⟩
        show n ≤ n + 32 + 0 ∧ 0 ≤ 128
        omega
    | crash =>
      refine ⟨trivial, ih false 0 _ ⟨rfl, ?_⟩ h⟩
      intro n hn; cases hn
    | boot =>
      obtain ⟨hn, hs⟩ := h
      refine ⟨trivial, ih true 0 _ ?_ hs⟩
      have e : step s .boot = { s with ssn := some (s.stored + (writeFreq + padF)), pending := true } := by
        simp only [step, hn]
      rw [e]
      refine ⟨hlink, ?_⟩
      intro m hm; cases hm
      exact ⟨rfl, rfl⟩
    | refused => exact absurd h (fun h => h)
    | mcast => exact absurd h (fun h => h)
    | reprovision => exact absurd h (fun h => h)

/-- C35 for schedules that meet these conditions, whatever the number of
messages, saves, crashes and restarts. -/
theorem no_reuse_scheduled (ops : List Op) (h : Spec.Schedule false 0 St.init ops) :
    (run St.init ops).used.Nodup := by
  refine no_reuse_partial ops (schedule_timely ops false 0 St.init ⟨rfl, ?_⟩ h)
  intro n hn
  cases hn
  exact ⟨Nat.le_refl _, fun _ => rfl, fun h => by cases h⟩

/-- C35 with C32 and C33: in such a history the nonces of all messages protected
by one sender with numbers below 2^40 are pairwise different. -/
theorem nonces_nodup (ops : List Op) (ht : Spec.Timely St.init ops)
    (h40 : ∀ u ∈ (run St.init ops).used, u < 2 ^ 40) (id civ : List UInt8) (hi : id.length ≤ 7)
    (hc : civ.length = 13) :
    ((run St.init ops).used.map fun u => nonce id (storePiv (BitVec.ofNat 64 u)) civ).Nodup := by
  have hn := no_reuse_partial ops ht
  generalize (run St.init ops).used = us at hn h40
  induction us with
  | nil => simp
  | cons u us ih =>
    rw [List.nodup_cons] at hn
    rw [List.map_cons, List.nodup_cons]
    refine ⟨?_, ih hn.2 (fun v hv => h40 v (by simp [hv]))⟩
    intro hm
    obtain ⟨v, hv, e⟩ := List.mem_map.mp hm
    have := (nonces_of_numbers id id civ v u hi hi (h40 v (by simp [hv])) (h40 u (by simp)) hc).mp e
    exact hn.1 (this.2 ▸ hv)

/-- A history with sends across a save, a crash and a restart. -/
def demo : List Op :=
  List.replicate 40 .send ++ [.save true, .send, .crash, .boot, .save true, .send, .send, .crash, .boot]

instance decTimely : (s : St) → (ops : List Op) → Decidable (Spec.Timely s ops)
  | _, [] => .isTrue trivial
  | s, op :: ops =>
    have := decTimely (step s op) ops
    match op, s with
    | .send, ⟨some n, l, st, p, u⟩ =>
      if h : n < st + 160 then
        match this with
        | .isTrue h' => .isTrue ⟨fun m hm => by cases hm; exact h, h'⟩
        | .isFalse h' => .isFalse fun x => h' x.2
      else .isFalse fun x => h (x.1 n rfl)
    | .mcast, ⟨some n, l, st, p, u⟩ =>
      if h : n < st + 160 then
        match this with
        | .isTrue h' => .isTrue ⟨fun m hm => by cases hm; exact h, h'⟩
        | .isFalse h' => .isFalse fun x => h' x.2
      else .isFalse fun x => h (x.1 n rfl)
    | .send, ⟨none, l, st, p, u⟩ | .mcast, ⟨none, l, st, p, u⟩ =>
      match this with
      | .isTrue h' => .isTrue ⟨fun m hm => (by cases hm), h'⟩
      | .isFalse h' => .isFalse fun x => h' x.2
    | .reprovision, _ => .isFalse fun x => x.1
    | .refused, _ | .save _, _ | .saveOther _, _ | .crash, _ | .boot, _ =>
      match this with
      | .isTrue h' => .isTrue ⟨trivial, h'⟩
      | .isFalse h' => .isFalse fun x => h' x.2

example : Spec.Timely St.init demo := by decide +kernel
example : (run St.init demo).used.take 4 = [201, 200, 40, 39] := by decide +kernel
example : Spec.Schedule false 0 St.init [.send, .save true, .crash, .boot, .save true, .send] := by
  refine ⟨rfl, fun h => (by cases h), rfl, ?_⟩
  refine ⟨rfl, rfl, rfl, fun h => (by cases h), trivial⟩

/-- C35 fails: the restart itself is only saved by a callback.  A message sent
before that, a second crash and a restart, and the same number is used again. -/
theorem crash_before_save_false :
    (run St.init [.send, .crash, .boot, .send, .crash, .boot, .send]).used = [160, 160, 0] := by decide

/-- C35 fails for multicast requests: no save is ever scheduled for them. -/
theorem multicast_reuse_false :
    ¬ (run St.init (List.replicate 161 .mcast ++ [.save true, .crash, .boot, .mcast])).used.Nodup := by
  decide +kernel

/-- C35 fails if the number divisible by 32 always falls on a request that is
refused: the test is not reached and no save is scheduled, although saves run
as soon as they are scheduled. -/
theorem skipped_save_false :
    ¬ (run St.init ((List.replicate 6 (List.replicate 31 .send ++ [.refused, .save true])).flatten
      ++ [.crash, .boot, .send])).used.Nodup := by
  decide +kernel

/-- C35 fails if the same credential is provisioned a second time: the messages
go on with the first context, the number saved is that of the second. -/
theorem reprovisioned_reuse_false :
    ¬ (run St.init ((List.replicate 7 (List.replicate 32 .send ++ [.save true])).flatten
      ++ [.reprovision, .saveOther true, .crash, .boot, .send])).used.Nodup := by
  decide +kernel

end Verif.Oscore
