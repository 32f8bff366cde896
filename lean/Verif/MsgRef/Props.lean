import Verif.MsgRef.Model

/-! Properties of the reference count. -/

namespace Verif.MsgRef

/-- The references there are: those not in use by a call, and one for each call (a
call to add a reference is made by a holder, a call to give one back holds it until it
is done). -/
def refs (s : St) : Nat := s.idle + s.calls.length

/-- What a call has seen is not 0 if it is to be counted down. -/
def okCall (c : Call) : Prop := c.add = false → c.seen ≠ some 0

/-- What holds as long as there were never more than 255 references. -/
def Inv (s : St) : Prop :=
  (s.frees = 0 ∧ s.cnt = refs s ∧ 0 < refs s ∨ s.frees = 1 ∧ refs s = 0) ∧ ∀ c ∈ s.calls, okCall c

theorem inv_start : Inv start := ⟨Or.inl ⟨rfl, rfl, by decide⟩, (fun _ h => by cases h)⟩

theorem mem_set {c x : Call} {l : List Call} {i : Nat} (h : x ∈ l.set i c) : x ∈ l ∨ x = c :=
  List.mem_or_eq_of_mem_set h

theorem step_inv (s : St) (a : Act) (o : Out St) (hi : Inv s) (hs : step s a = some o) :
    ∃ t, o = .ok t ∧ (refs t ≤ 255 → Inv t) ∧ s.frees ≤ t.frees := by
  obtain ⟨hc, hcalls⟩ := hi
  cases a with
  | callAdd =>
    unfold step at hs
    dsimp only at hs
    split at hs
    · rename_i h0
      cases hs
      refine ⟨_, rfl, fun _ => ⟨?_, ?_⟩, Nat.le_refl _⟩
      · unfold refs at hc ⊢
        simp only [List.length_append, List.length_cons, List.length_nil]
        omega
      · intro c hcc
        rcases List.mem_append.1 hcc with h | h
        · exact hcalls c h
        · rw [List.mem_singleton] at h; subst h; intro h; cases h
    · cases hs
  | callUnref =>
    unfold step at hs
    dsimp only at hs
    split at hs
    · rename_i h0
      cases hs
      refine ⟨_, rfl, fun _ => ⟨?_, ?_⟩, Nat.le_refl _⟩
      · unfold refs at hc ⊢
        simp only [List.length_append, List.length_cons, List.length_nil]
        omega
      · intro c hcc
        rcases List.mem_append.1 hcc with h | h
        · exact hcalls c h
        · rw [List.mem_singleton] at h; subst h; intro _ h; cases h
    · cases hs
  | go i =>
    unfold step at hs
    dsimp only at hs
    cases hg : s.calls[i]? with
    | none => rw [hg] at hs; cases hs
    | some c =>
      rw [hg] at hs
      obtain ⟨hil, hie⟩ := List.getElem?_eq_some_iff.1 hg
      have hmem : c ∈ s.calls := by rw [← hie]; exact List.getElem_mem hil
      have hlen : 0 < s.calls.length := Nat.lt_of_le_of_lt (Nat.zero_le _) hil
      have hf : s.frees = 0 ∧ s.cnt = refs s ∧ 0 < refs s := by
        rcases hc with h | ⟨h1, h2⟩
        · exact h
        · unfold refs at h2; omega
      have hel : (s.calls.eraseIdx i).length = s.calls.length - 1 := by
        rw [List.length_eraseIdx, if_pos hil]
      have hset : ∃ t, Out.ok { s with calls := s.calls.set i { c with seen := some s.cnt } } = Out.ok t ∧
          (refs t ≤ 255 → Inv t) ∧ s.frees ≤ t.frees := by
        refine ⟨_, rfl, fun _ => ⟨?_, ?_⟩, Nat.le_refl _⟩
        · unfold refs at hc ⊢
          simp only [List.length_set]
          exact hc
        · intro x hx
          rcases mem_set hx with h | h
          · exact hcalls x h
          · subst h
            intro _ h
            have := Option.some.inj h
            omega
      replace hs := Option.some.inj hs
      unfold go at hs
      rw [if_neg (by omega)] at hs
      cases hsn : c.seen with
      | none =>
        rw [hsn] at hs
        dsimp only at hs
        rw [if_neg (by omega)] at hs
        cases hs
        exact hset
      | some v =>
        rw [hsn] at hs
        dsimp only at hs
        by_cases hv : v = s.cnt
        · rw [if_pos hv] at hs
          cases ha : c.add with
          | true =>
            rw [ha, if_pos rfl] at hs
            cases hs
            refine ⟨_, rfl, fun hle => ⟨?_, ?_⟩, Nat.le_refl _⟩
            · unfold refs at hc hf hle ⊢
              dsimp only at hle ⊢
              rw [hel] at hle ⊢
              have : (v + 1) % 256 = v + 1 := Nat.mod_eq_of_lt (by omega)
              rw [this]
              omega
            · intro x hx
              exact hcalls x (List.mem_of_mem_eraseIdx hx)
          | false =>
            rw [ha, if_neg (by simp)] at hs
            cases hs
            refine ⟨_, rfl, fun _ => ⟨?_, ?_⟩, ?_⟩
            · unfold refs at hc hf ⊢
              dsimp only
              rw [hel]
              split <;> omega
            · intro x hx
              exact hcalls x (List.mem_of_mem_eraseIdx hx)
            · dsimp only
              split <;> omega
        · rw [if_neg hv, if_neg (by omega)] at hs
          cases hs
          exact hset

/-- All states of a schedule. -/
def states (s : St) : List Act → List St
  | [] => [s]
  | a :: l => match step s a with
    | some (.ok t) => s :: states t l
    | _ => [s]

theorem run_inv (l : List Act) : ∀ s, Inv s → (∀ t ∈ states s l, refs t ≤ 255) → ∀ o, run s l = some o →
    ∃ t, o = .ok t ∧ Inv t := by
  induction l with
  | nil => intro s h _ o ho; cases ho; exact ⟨s, rfl, h⟩
  | cons a l ih =>
    intro s h hb o ho
    unfold run at ho
    unfold states at hb
    cases hs : step s a with
    | none => rw [hs] at ho; cases ho
    | some x =>
      obtain ⟨t, rfl, hi, _⟩ := step_inv s a x h hs
      rw [hs] at ho hb
      dsimp only at ho hb
      refine ih t (hi ?_) (fun u hu => hb u (List.mem_cons_of_mem _ hu)) o ho
      refine hb t (List.mem_cons_of_mem _ ?_)
      cases l with
      | nil => exact List.mem_singleton.2 rfl
      | cons a' l' =>
        unfold states
        split
        · exact List.mem_cons_self ..
        · exact List.mem_singleton.2 rfl

/-- A message with at most 255 references at a time is never used after it was
deallocated, whatever the threads do; it is deallocated exactly when its last
reference was given back, once. -/
theorem freed_once_partial (l : List Act) (hb : ∀ t ∈ states start l, refs t ≤ 255) (o : Out St) (h : run start l = some o) :
    ∃ t, o = .ok t ∧ t.frees ≤ 1 ∧ (t.frees = 1 ↔ refs t = 0) := by
  obtain ⟨t, ht, hi, _⟩ := run_inv l start inv_start hb o h
  exact ⟨t, ht, by omega, by omega⟩

/-- Three references given back by three threads whose accesses are mixed. -/
example : run start [.callAdd, .go 0, .go 0, .callUnref, .callUnref, .go 0, .go 1, .go 1, .go 0, .go 0] = some (.ok ⟨0, 0, [], 1⟩) := rfl

/-- `n` references are added, one after the other. -/
def adds : Nat → List Act
  | 0 => []
  | n + 1 => .callAdd :: .go 0 :: .go 0 :: adds n

theorem run_append (a b : List Act) : ∀ s t, run s a = some (.ok t) → run s (a ++ b) = run t b := by
  induction a with
  | nil => intro s t h; cases h; rfl
  | cons x a ih =>
    intro s t h
    rw [List.cons_append]
    have e : ∀ l, run s (x :: l) = match step s x with
      | some (.ok t) => run t l
      | y => y := fun _ => rfl
    rw [e] at h ⊢
    cases hx : step s x with
    | none => rw [hx] at h; cases h
    | some o =>
      rw [hx] at h
      cases o with
      | ok u => exact ih u t h
      | ub => cases h

theorem run_adds (n : Nat) : ∀ c k, c < 256 → run ⟨c, k + 1, [], 0⟩ (adds n) = some (.ok ⟨(c + n) % 256, k + 1 + n, [], 0⟩) := by
  induction n with
  | zero =>
    intro c k hc
    show some _ = some (Out.ok (⟨c % 256, _, _, _⟩ : St))
    rw [Nat.mod_eq_of_lt hc]
  | succ n ih =>
    intro c k hc
    have : run ⟨c, k + 1, [], 0⟩ (adds (n + 1)) = run ⟨(c + 1) % 256, k + 1 + 1, [], 0⟩ (adds n) := by
      show run _ ([.callAdd, .go 0, .go 0] ++ adds n) = _
      refine run_append _ _ _ _ ?_
      simp [run, step, go]
    rw [this, ih _ _ (Nat.mod_lt _ (by decide))]
    have h1 : ((c + 1) % 256 + n) % 256 = (c + (n + 1)) % 256 := by omega
    have h2 : k + 1 + 1 + n = k + 1 + (n + 1) := by omega
    rw [h1, h2]

/-- With 257 references the count has wrapped around to 1: giving one back
deallocates the message while 256 references are held; giving back another is a use
after free. -/
theorem wrap_ub : run start (adds 256 ++ [.callUnref, .go 0, .go 0, .callUnref, .go 0]) = some .ub ∧
    ∃ s, run start (adds 256 ++ [.callUnref, .go 0, .go 0]) = some (.ok s) ∧ s.frees = 1 ∧ refs s = 256 := by
  have h : run start (adds 256) = some (.ok ⟨1, 257, [], 0⟩) := run_adds 256 1 0 (by decide)
  constructor
  · rw [run_append _ _ _ _ h]; rfl
  · rw [run_append _ _ _ _ h]; exact ⟨_, rfl, rfl, rfl⟩

/-- With 256 references the count is 0: giving one back does nothing, so that after
all were given back the message is never deallocated. -/
theorem lost_false : ∃ l s, run start (adds 255 ++ l) = some (.ok s) ∧ refs s = 0 ∧ s.frees = 0 := by
  have h : run start (adds 255) = some (.ok ⟨0, 256, [], 0⟩) := run_adds 255 1 0 (by decide)
  have key : ∀ n k, run ⟨0, n + k, [], 0⟩ ((List.replicate n [Act.callUnref, Act.go 0]).flatten) = some (.ok ⟨0, k, [], 0⟩) := by
    intro n
    induction n with
    | zero => intro k; rw [Nat.zero_add]; rfl
    | succ n ih =>
      intro k
      rw [List.replicate_succ, List.flatten_cons]
      have h1 : run ⟨0, n + 1 + k, [], 0⟩ [Act.callUnref, Act.go 0] = some (.ok ⟨0, n + k, [], 0⟩) := by
        have h2 : n + 1 + k - 1 = n + k := by omega
        have h3 : n + 1 + k > 0 := by omega
        simp only [run, step, h2, if_pos h3]
        rfl
      rw [run_append _ _ _ _ h1]
      exact ih k
  refine ⟨(List.replicate 256 [Act.callUnref, Act.go 0]).flatten, ⟨0, 0, [], 0⟩, ?_, rfl, rfl⟩
  rw [run_append _ _ _ _ h]
  exact key 256 0

/-- A call that finds the count changed has to try again, but only because another
call has succeeded since: in a run of any length of one call alone it is done after
two accesses. -/
theorem alone_done (s : St) (i : Nat) (c : Call) (hf : s.frees = 0) (hi : s.calls[i]? = some c) :
    ∃ k t, k ≤ 2 ∧ run s (List.replicate k (.go i)) = some (.ok t) ∧ t.calls = s.calls.eraseIdx i := by
  obtain ⟨hil, hie⟩ := List.getElem?_eq_some_iff.1 hi
  have hget : ∀ v, (s.calls.set i { c with seen := some v })[i]? = some { c with seen := some v } := by
    intro v; rw [List.getElem?_set_self hil]
  have her : ∀ v, (s.calls.set i { c with seen := some v }).eraseIdx i = s.calls.eraseIdx i := by
    intro v; rw [List.eraseIdx_set_eq]
  have second : ∀ s' : St, s'.frees = 0 → s'.cnt = s.cnt → s'.calls = s.calls.set i { c with seen := some s.cnt } →
      ∃ t, run s' [.go i] = some (.ok t) ∧ t.calls = s.calls.eraseIdx i := by
    intro s' h1 h2 h3
    have hg : s'.calls[i]? = some { c with seen := some s.cnt } := by rw [h3]; exact hget _
    have he : s'.calls.eraseIdx i = s.calls.eraseIdx i := by rw [h3]; exact her _
    cases ha : c.add with
    | true =>
      refine ⟨{ s' with cnt := (s.cnt + 1) % 256, idle := s'.idle + 2, calls := s'.calls.eraseIdx i }, ?_, he⟩
      simp [run, step, hg, go, h1, h2, ha]
    | false =>
      refine ⟨{ s' with cnt := s.cnt - 1, calls := s'.calls.eraseIdx i, frees := if s.cnt - 1 = 0 then s'.frees + 1 else s'.frees }, ?_, he⟩
      simp [run, step, hg, go, h1, h2, ha]
  by_cases hz : c.add = false ∧ s.cnt = 0
  · -- the call ends at once, or after its compare and swap
    cases hsn : c.seen with
    | none =>
      refine ⟨1, { s with calls := s.calls.eraseIdx i }, by omega, ?_, rfl⟩
      simp [List.replicate, run, step, hi, go, hf, hsn, hz]
    | some v =>
      by_cases hv : v = s.cnt
      · refine ⟨1, { s with cnt := v - 1, calls := s.calls.eraseIdx i, frees := if v - 1 = 0 then s.frees + 1 else s.frees },
          by omega, ?_, rfl⟩
        simp [List.replicate, run, step, hi, go, hf, hsn, hz.1, hv]
      · refine ⟨1, { s with calls := s.calls.eraseIdx i }, by omega, ?_, rfl⟩
        have hv0 : ¬ v = 0 := by omega
        simp [List.replicate, run, step, hi, go, hf, hsn, hz, hv0]
  · have first : ∀ h : (c.seen = none ∨ ∃ v, c.seen = some v ∧ v ≠ s.cnt),
        run s [.go i] = some (.ok { s with calls := s.calls.set i { c with seen := some s.cnt } }) := by
      intro h
      rcases h with h | ⟨v, h, hv⟩
      · simp only [run, step, hi, go, hf, h, if_neg hz]
        rfl
      · simp only [run, step, hi, go, hf, h, if_neg hz, if_neg hv]
        rfl
    have two : (c.seen = none ∨ ∃ v, c.seen = some v ∧ v ≠ s.cnt) →
        ∃ k t, k ≤ 2 ∧ run s (List.replicate k (.go i)) = some (.ok t) ∧ t.calls = s.calls.eraseIdx i := by
      intro h
      obtain ⟨t, ht, he⟩ := second { s with calls := s.calls.set i { c with seen := some s.cnt } } hf rfl rfl
      refine ⟨2, t, by omega, ?_, he⟩
      show run s ([.go i] ++ [.go i]) = _
      rw [run_append _ _ _ _ (first h)]
      exact ht
    cases hsn : c.seen with
    | none => exact two (Or.inl hsn)
    | some v =>
      by_cases hv : v = s.cnt
      · have hset : s.calls.set i { c with seen := some s.cnt } = s.calls := by
          have hcc : ({ c with seen := some s.cnt } : Call) = c := by
            rw [← hv, ← hsn]
          rw [hcc, ← hie]
          exact List.set_getElem_self hil
        obtain ⟨t, ht, he⟩ := second s hf rfl hset.symm
        exact ⟨1, t, by omega, ht, he⟩
      · exact two (Or.inr ⟨v, hsn, hv⟩)

/-- The bytes of a message always lie within its buffer. -/
theorem shrink_fits (length size want : Nat) (mem : Bool) (h : length ≤ size) :
    (shrink length size want mem).1 ≤ (shrink length size want mem).2 ∧
    (want ≥ length → (shrink length size want mem).1 = length) := by
  unfold shrink
  by_cases h1 : want = size
  · rw [if_pos h1]; exact ⟨h, fun _ => rfl⟩
  · rw [if_neg h1]
    split
    · exact ⟨h, fun _ => rfl⟩
    · dsimp only
      omega

end Verif.MsgRef
