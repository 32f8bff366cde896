import Verif.Swu.Post
import Verif.Swu.Clock

/-!
C119, second part: histories of the software update resource.
-/

namespace Verif.Swu

open Verif.Rep (b Bytes Val Rep)
open Spec

/-! ### Checking a request without executing it -/

theorem loop_some (c : Clk) (f : Err → Bool) (rep : Rep) : ∀ l : Loop, l.done = true →
    ∃ l', loop c false (some f) rep l = .ok l' ∧
      (((∀ p ∈ rep, Good c.parse p) → l' = { l with dec := decOf c l.dec rep }) ∧
       ((¬ ∀ p ∈ rep, Good c.parse p) → l'.valid = false ∧ l'.errs ≠ [])) ∧
      (l.valid = false → l'.valid = false) ∧ (l.errs ≠ [] → l'.errs ≠ []) := by
  induction rep with
  | nil =>
    intro l _
    refine ⟨l, rfl, ⟨fun _ => ?_, fun h => absurd (by simp) h⟩, fun h => h, fun h => h⟩
    simp [decOf, last]
  | cons p ps ih =>
    intro l hl
    by_cases hp : Good c.parse p
    · simp only [loop, decProp_good c l.dec p hp, Out.bind]
      obtain ⟨l', h1, ⟨h2, h3⟩, h4, h5⟩ := ih { l with dec := decOf c l.dec [p] } hl
      refine ⟨l', h1, ⟨fun h => ?_, fun h => ?_⟩, h4, h5⟩
      · have hps : ∀ q ∈ ps, Good c.parse q := fun q hq => h q (List.mem_cons_of_mem _ hq)
        rw [h2 hps]
        simp only [decOf_cons c l.dec p ps hp hps]
      · exact h3 (fun hps => h (by
          intro q hq
          rcases List.mem_cons.1 hq with rfl | hq
          · exact hp
          · exact hps q hq))
    · obtain ⟨e, he⟩ := decProp_bad c l.dec p hp
      simp only [loop, he, Out.bind]
      cases f e with
      | true =>
        rw [if_pos rfl]
        obtain ⟨l', h1, ⟨h2, h3⟩, h4, h5⟩ := ih { l with valid := false, errs := l.errs ++ [e] } hl
        refine ⟨l', h1, ⟨fun h => absurd (h p List.mem_cons_self) hp, fun _ => ⟨h4 rfl, h5 (by simp)⟩⟩,
          fun _ => h4 rfl, fun _ => h5 (by simp)⟩
      | false =>
        rw [if_neg (by decide)]
        exact ⟨_, rfl, ⟨fun h => absurd (h p List.mem_cons_self) hp, fun _ => ⟨rfl, by simp⟩⟩, fun _ => rfl,
          fun _ => by simp⟩

theorem checkData_some (i : Impl) (now : Nat) (d : Dec) (skip : Bool) (f : Err → Bool) :
    (checkData i now d skip (some f)).1 = (checkData i now d skip none).1 ∧
    ((checkData i now d skip (some f)).1 = true ↔ (checkData i now d skip (some f)).2 = []) := by
  unfold checkData
  cases checkTime now d with
  | some e =>
    simp only
    cases f e <;> simp
  | none =>
    cases skip with
    | true => simp
    | false => cases checkPurl i d <;> simp

/-- For every request and every handler of errors, the check of a request
(`oc_swupdate_validate_update`) says yes exactly when a POST of it would be accepted,
and reports an error exactly when it says no. -/
theorem validate_agrees (c : Clk) (i : Impl) (now : Nat) (hasPurl : Bool) (f : Err → Bool) (rep : Rep) :
    ∃ ok d errs, decode c i now false true hasPurl (some f) rep = .ok (ok, d, errs) ∧
      (ok = true ↔ Accepts c.parse i.validate now hasPurl rep) ∧ (ok = true ↔ errs = []) := by
  obtain ⟨l', h1, ⟨h2, h3⟩, _, _⟩ := loop_some c f rep {} rfl
  unfold decode
  rw [h1]
  simp only [Out.bind]
  by_cases hg : ∀ p ∈ rep, Good c.parse p
  · rw [h2 hg]
    simp only [Bool.not_true, Bool.false_eq_true, if_false, Bool.or_self, List.nil_append]
    have hs := checkData_some i now (decOf c {} rep) (skipPurl hasPurl (decOf c {} rep)) f
    refine ⟨_, _, _, rfl, ?_, hs.2⟩
    rw [hs.1]
    exact check_iff c i now hasPurl rep hg
  · obtain ⟨hv, he⟩ := h3 hg
    by_cases hd : l'.done = true
    · rw [hd, hv]
      simp only [Bool.not_true, Bool.false_eq_true, if_false, Bool.not_false, Bool.true_or, if_true]
      exact ⟨_, _, _, rfl, ⟨fun h => (by cases h), fun h => absurd h.good hg⟩, ⟨fun h => (by cases h), fun h => absurd h he⟩⟩
    · rw [show l'.done = false by simpa using hd]
      simp only [Bool.not_false, if_true]
      exact ⟨_, _, _, rfl, ⟨fun h => (by cases h), fun h => absurd h.good hg⟩, ⟨fun h => (by cases h), fun h => absurd h he⟩⟩

/-! ### Storage -/

/-- The clock reads back what it writes. -/
def Clk.Ok (c : Clk) : Prop := ∀ t x, c.fmt t = some x → c.parse x = some t

/-- The clock of the library does, for any number of ticks per second up to a million
that divides a thousand million. -/
theorem clk_ok (tps : Nat) (h0 : 0 < tps) (hd : tps ∣ 1000000000) (hb : tps ≤ 1000000) : (clk tps).Ok := by
  intro t x h
  simp only [clk] at h ⊢
  cases he : Verif.Rfc3339.encodeTime tps t (List.replicate 64 0) with
  | ub => rw [he] at h; cases h
  | ok r =>
    obtain ⟨n, d⟩ := r
    rw [he] at h
    simp only at h
    by_cases hn : n = 0
    · rw [if_pos hn] at h; cases h
    · rw [if_neg hn] at h
      cases h
      have hy : t / tps ≤ 253402300799 := by
        have := Verif.Rfc3339.format_late _ _ _ _ he hn
        simp only at this
        omega
      have h64 : t < 18446744073709551616 := by
        have h1 := Nat.div_add_mod t tps
        have h2 := Nat.mod_lt t h0
        have h3 : tps * (t / tps) ≤ 1000000 * 253402300799 := Nat.mul_le_mul hb hy
        generalize tps * (t / tps) = y at *
        omega
      obtain ⟨n', d', e1, e2, e3⟩ := Verif.Rfc3339.clock_roundtrip tps t (List.replicate 64 0) h0 hd hy h64 (by simp)
      rw [he] at e1
      cases e1
      have hs := Verif.Rfc3339.format_short _ _ _ _ he
      rw [if_neg (by rw [List.length_take]; omega), e3]

theorem cstr_idem (s : Bytes) : cstr (cstr s) = cstr s := by
  unfold cstr
  induction s with
  | nil => rfl
  | cons a s ih =>
    by_cases h : (a != 0) = true
    · simp only [List.takeWhile_cons, h, if_true, ih]
    · simp only [List.takeWhile_cons, h]; rfl

/-- The resource as it is read back: strings are never null and end at a zero byte. -/
def normal (w : Swu) : Swu :=
  { w with purl := some (cstr (w.purl.getD [])), nv := some (cstr (w.nv.getD [])), signage := some (cstr (w.signage.getD [])) }

theorem actionOf_str (a : Action) : actionOf (actionStr a) = some a := by cases a <;> decide

theorem stateOf_str (a : State) : stateOf (stateStr a) = some a := by cases a <;> decide

theorem encode_cases (c : Clk) (w : Swu) (r : Rep) (h : encode c true w = some r) :
    ∃ l t, r = [(b "purl", text w.purl), (b "nv", text w.nv), (b "signed", text w.signage),
        (b "swupdateaction", .str (actionStr w.action)), (b "swupdatestate", .str (stateStr w.state)),
        (b "swupdateresult", .int w.result)] ++ l ++ t ∧
      ((w.last = 0 ∧ l = []) ∨ ∃ x, c.fmt w.last = some x ∧ l = [(b "lastupdate", .str x)]) ∧
      ((w.time = 0 ∧ t = []) ∨ ∃ x, c.fmt w.time = some x ∧ t = [(b "updatetime", .str x)]) := by
  unfold encode at h
  simp only [Bool.true_eq_false, false_or] at h
  have hl : ∀ o, (if w.last > 0 then (c.fmt w.last).map fun x => [(b "lastupdate", Val.str x)] else some []) = some o →
      ((w.last = 0 ∧ o = []) ∨ ∃ x, c.fmt w.last = some x ∧ o = [(b "lastupdate", .str x)]) := by
    intro o ho
    by_cases h0 : w.last > 0
    · rw [if_pos h0] at ho
      cases hx : c.fmt w.last with
      | none => rw [hx] at ho; cases ho
      | some x => rw [hx] at ho; cases ho; exact .inr ⟨x, rfl, rfl⟩
    · rw [if_neg h0] at ho
      cases ho; exact .inl ⟨by omega, rfl⟩
  have ht : ∀ o, (if w.time > 0 then (c.fmt w.time).map fun x => [(b "updatetime", Val.str x)] else some []) = some o →
      ((w.time = 0 ∧ o = []) ∨ ∃ x, c.fmt w.time = some x ∧ o = [(b "updatetime", .str x)]) := by
    intro o ho
    by_cases h0 : w.time > 0
    · rw [if_pos h0] at ho
      cases hx : c.fmt w.time with
      | none => rw [hx] at ho; cases ho
      | some x => rw [hx] at ho; cases ho; exact .inr ⟨x, rfl, rfl⟩
    · rw [if_neg h0] at ho
      cases ho; exact .inl ⟨by omega, rfl⟩
  cases h1 : (if w.last > 0 then (c.fmt w.last).map fun x => [(b "lastupdate", Val.str x)] else some []) with
  | none => rw [h1] at h; cases h
  | some l =>
    cases h2 : (if w.time > 0 then (c.fmt w.time).map fun x => [(b "updatetime", Val.str x)] else some []) with
    | none => rw [h1, h2] at h; cases h
    | some t =>
      rw [h1, h2] at h
      cases h
      exact ⟨l, t, rfl, hl l h1, ht t h2⟩

theorem decStr_nv (c : Clk) (d : Dec) (s : Bytes) : decStr c true d (b "nv") s = .ok { d with nv := some s } := rfl
theorem decStr_signed (c : Clk) (d : Dec) (s : Bytes) :
    decStr c true d (b "signed") s = .ok { d with signage := some s } := by
  rw [decStr, if_neg (by decide), if_pos rfl]; rfl
theorem decStr_state (c : Clk) (d : Dec) (s : Bytes) : decStr c true d (b "swupdatestate") s = decState d s := by
  rw [decStr, if_neg (by decide), if_neg (by decide), if_neg (by decide), if_pos rfl]; rfl
theorem decStr_last (c : Clk) (d : Dec) (s : Bytes) : decStr c true d (b "lastupdate") s = decLast c d s := by
  rw [decStr, if_neg (by decide), if_neg (by decide), if_neg (by decide), if_neg (by decide), if_pos rfl]; rfl

theorem decTime_storage (c : Clk) (d : Dec) (s : Bytes) (t : Nat) (h : c.parse s = some t) :
    decTime c true d s = .ok { d with time := .set t } := by
  simp [decTime, h]

/-- What was stored is decoded again. -/
theorem decode_stored (c : Clk) (hc : c.Ok) (i : Impl) (now : Nat) (hp : Bool) (w : Swu) (r : Rep)
    (hi : w.result ≤ intMax) (h : encode c true w = some r) :
    ∃ d, decode c i now true false hp none r = .ok (true, d, []) ∧ ∀ now', copy now' d {} = normal w := by
  obtain ⟨l, t, rfl, hl, ht⟩ := encode_cases c w r h
  unfold decode
  simp only [List.cons_append, List.nil_append, loop, decProp, text, decStr_purl, decStr_nv, decStr_signed,
    decStr_action, decStr_state, Out.bind, decAction, decState, actionOf_str, stateOf_str, decInt, if_true, if_pos hi]
  rcases hl with ⟨hl0, rfl⟩ | ⟨x, hx, rfl⟩ <;> rcases ht with ⟨ht0, rfl⟩ | ⟨y, hy, rfl⟩ <;>
    simp only [List.nil_append, List.append_nil, List.cons_append, loop, decProp, decStr_last, decStr_time, Out.bind,
      decLast]
  · exact ⟨_, rfl, fun now' => by simp [copy, copyTime, normal, hl0, ht0]⟩
  · rw [decTime_storage c _ _ _ (hc _ _ hy)]
    exact ⟨_, rfl, fun now' => by simp [copy, copyTime, normal, hl0]⟩
  · rw [hc _ _ hx]
    exact ⟨_, rfl, fun now' => by simp [copy, copyTime, normal, ht0]⟩
  · rw [hc _ _ hx]
    simp only
    rw [decTime_storage c _ _ _ (hc _ _ hy)]
    exact ⟨_, rfl, fun now' => by simp [copy, copyTime, normal]⟩

/-- Every number that the application reports is an `int`. -/
def Fits : Op → Prop
  | .available _ r | .downloaded r | .upgrading _ _ r | .done r => r ≤ intMax
  | _ => True

/-- What holds in every history: what is stored was encoded from a resource. -/
structure Inv (c : Clk) (P : Swu → Prop) (s : St) : Prop where
  swu : P s.swu
  store : ∀ r, s.store = some r → ∃ w, encode c true w = some r ∧ P w

/-- A property of the resource that survives a restart and every step. -/
structure Stable (c : Clk) (P : Swu → Prop) : Prop where
  int : ∀ w, P w → w.result ≤ intMax
  start : P {} ∧ P { signage := some (b "vendor") }
  back : ∀ w, P w → P (normal w)
  action : ∀ w a, P w → P { w with action := a }
  avail : ∀ w v (r : Int) a, P w → r ≤ intMax → P { w with nv := some v, state := .nsa, result := r, action := a }
  down : ∀ w (r : Int) a, P w → r ≤ intMax → P { w with state := .sva, result := r, action := a }
  upg : ∀ w v t (r : Int), P w → r ≤ intMax → P { w with state := .upgrading, result := r, nv := some v, last := t }
  fin : ∀ w (r : Int), P w → r ≤ intMax → P { w with nv := none, action := .idle, state := .idle, result := r }

theorem inv_dump (c : Clk) (P : Swu → Prop) (saved : Bool) (s : St) (h : Inv c P s) : Inv c P (dump c saved s) := by
  refine ⟨by rw [(dump_swu c saved s).1]; exact h.swu, ?_⟩
  unfold dump
  cases he : encode c true s.swu with
  | none => exact h.store
  | some r =>
    cases saved with
    | false => exact h.store
    | true =>
      simp only [if_true]
      intro r' hr
      cases hr
      exact ⟨s.swu, he, h.swu⟩

theorem inv_execute (c : Clk) (P : Swu → Prop) (room : Bool) (s : St) (h : Inv c P s) : Inv c P (execute room s) := by
  have hx := execute_swu room s
  exact ⟨by rw [hx.1]; exact h.swu, by rw [hx.2.2.2.2.2]; exact h.store⟩

/-- Loading: the resource as it was stored, or the default one. -/
theorem load_eq (c : Clk) (hc : c.Ok) (P : Swu → Prop) (hP : Stable c P) (room saved : Bool) (s : St) (h0 : s.swu = {})
    (hst : ∀ r, s.store = some r → ∃ w, encode c true w = some r ∧ P w) :
    (s.store = none ∧ load c room saved s = .ok (default c saved s)) ∨
    ∃ w r, s.store = some r ∧ encode c true w = some r ∧ P w ∧
      load c room saved s = .ok (execute room { s with swu := normal w }) := by
  cases hs : s.store with
  | none => exact .inl ⟨rfl, by simp [load, hs]⟩
  | some r =>
    obtain ⟨w, he, hw⟩ := hst r hs
    refine .inr ⟨w, r, rfl, he, hw, ?_⟩
    obtain ⟨d, hd, hcp⟩ := decode_stored c hc s.impl s.now s.swu.purl.isSome w r (hP.int w hw) he
    unfold load
    rw [hs]
    simp only [hd, Out.bind, if_true]
    rw [h0, hcp]

/-- A stable property holds along every history in which each accepted request keeps
it, and there is no undefined behaviour. -/
theorem inv_step (c : Clk) (hc : c.Ok) (P : Swu → Prop) (hP : Stable c P) (s : St) (op : Op) (hf : Fits op)
    (hpost : ∀ rep room saved s', op = .post rep room saved → post c rep room saved s = .ok (true, s') → P s'.swu)
    (h : Inv c P s) : ∃ s', step c s op = .ok s' ∧ Inv c P s' := by
  cases op with
  | post rep room saved =>
    obtain ⟨ok, s', he, _, hno⟩ := post_accepts_iff c rep room saved s
    refine ⟨s', by simp [step, he, Out.bind], ?_⟩
    cases ok with
    | false => rw [hno rfl]; exact h
    | true =>
      have hP' := hpost rep room saved s' rfl he
      obtain ⟨_, hs⟩ := accepted_state c rep room saved s s' he
      have hsw : (copy s.now (decOf c {} rep) s.swu) = s'.swu := by
        rw [hs, (dump_swu c saved _).1, (execute_swu room _).1]
      rw [hs]
      refine inv_dump c P saved _ (inv_execute c P room _ ⟨?_, h.store⟩)
      show P (copy s.now (decOf c {} rep) s.swu)
      rw [hsw]; exact hP'
  | wait dt =>
    refine ⟨_, rfl, ?_⟩
    unfold wait
    simp only
    cases s.timer with
    | none => exact ⟨h.swu, h.store⟩
    | some t =>
      simp only
      split
      · exact ⟨hP.action _ _ h.swu, h.store⟩
      · exact ⟨h.swu, h.store⟩
  | flush saved =>
    refine ⟨_, rfl, ?_⟩
    cases s.dirty with
    | false => exact h
    | true =>
      have := inv_dump c P saved s h
      exact ⟨this.swu, this.store⟩
  | available v r =>
    refine ⟨_, rfl, ?_⟩
    unfold available
    simp only
    by_cases hr : r = 1
    · rw [if_pos hr, if_pos hr]
      exact ⟨hP.avail s.swu v r _ h.swu hf, h.store⟩
    · rw [if_neg hr, if_neg hr]
      exact ⟨hP.avail s.swu v r _ h.swu hf, h.store⟩
  | downloaded r =>
    refine ⟨_, rfl, ?_⟩
    unfold downloaded
    simp only
    by_cases hr : r = 1
    · rw [if_pos hr, if_pos hr]
      exact ⟨hP.down s.swu r _ h.swu hf, h.store⟩
    · rw [if_neg hr, if_neg hr]
      exact ⟨hP.down s.swu r _ h.swu hf, h.store⟩
  | upgrading v t r => exact ⟨_, rfl, hP.upg s.swu v t r h.swu hf, h.store⟩
  | done r => exact ⟨_, rfl, hP.fin s.swu r h.swu hf, h.store⟩
  | target a => exact ⟨_, rfl, hP.action _ a h.swu, h.store⟩
  | setImpl i => exact ⟨_, rfl, h.swu, h.store⟩
  | restart dt room saved =>
    rcases load_eq c hc P hP room saved { s with swu := {}, timer := none, dirty := false, now := s.now + dt } rfl
      h.store with ⟨_, hl⟩ | ⟨w, r, _, _, hw, hl⟩
    · refine ⟨_, hl, ?_⟩
      exact inv_dump c P saved _ ⟨hP.start.2, h.store⟩
    · refine ⟨_, hl, ?_⟩
      exact inv_execute c P room _ ⟨hP.back w hw, h.store⟩

/-- The plainest stable property. -/
theorem stable_int (c : Clk) : Stable c (fun w => w.result ≤ intMax) where
  int _ h := h
  start := ⟨by decide, by decide⟩
  back _ h := h
  action _ _ h := h
  avail _ _ _ _ _ h := h
  down _ _ _ _ h := h
  upg _ _ _ _ _ h := h
  fin _ _ _ h := h

theorem post_result (c : Clk) (rep : Rep) (room saved : Bool) (s s' : St)
    (h : post c rep room saved s = .ok (true, s')) : s'.swu.result = s.swu.result :=
  (post_effect c rep room saved s s' h).1.rest.2.2.2.1

/-- No history leads to undefined behaviour, and what is stored was encoded from a
resource. -/
theorem run_safe (c : Clk) (hc : c.Ok) (ops : List Op) (hf : ∀ op ∈ ops, Fits op) : ∀ s : St,
    Inv c (fun w => w.result ≤ intMax) s → ∃ s', run c s ops = .ok s' ∧ Inv c (fun w => w.result ≤ intMax) s' := by
  induction ops with
  | nil => intro s h; exact ⟨s, rfl, h⟩
  | cons op ops ih =>
    intro s h
    obtain ⟨s1, h1, h2⟩ := inv_step c hc _ (stable_int c) s op (hf op List.mem_cons_self)
      (fun rep room saved s' _ hp => by rw [post_result c rep room saved s s' hp]; exact h.swu) h
    simp only [run, h1, Out.bind]
    exact ih (fun o ho => hf o (List.mem_cons_of_mem _ ho)) s1 h2

/-! ### URLs -/

/-- A string that the application accepted, or nothing. -/
def UrlOk (V : Bytes → Prop) (w : Swu) : Prop :=
  w.result ≤ intMax ∧ ∀ u, w.purl = some u → cstr u = [] ∨ V (cstr u)

theorem stable_url (c : Clk) (V : Bytes → Prop) : Stable c (UrlOk V) where
  int _ h := h.1
  start := ⟨⟨by decide, by intro u h; cases h⟩, ⟨by decide, by intro u h; cases h⟩⟩
  back w h := by
    refine ⟨h.1, ?_⟩
    intro u hu
    simp only [normal, Option.some.injEq] at hu
    subst hu
    rw [cstr_idem]
    cases hp : w.purl with
    | none => exact .inl rfl
    | some p => exact h.2 p hp
  action _ _ h := h
  avail _ _ _ _ h hr := ⟨hr, h.2⟩
  down _ _ _ h hr := ⟨hr, h.2⟩
  upg _ _ _ _ h hr := ⟨hr, h.2⟩
  fin _ _ h hr := ⟨hr, h.2⟩

/-- The steps that call the application. -/
theorem step_log (c : Clk) (s s' : St) (op : Op) (h : step c s op = .ok s') :
    (∀ k ∈ s'.log, k ∈ s.log ∨ k.url = s'.swu.purl.map cstr) ∧ ((∀ i, op ≠ .setImpl i) → s'.impl = s.impl) := by
  cases op with
  | post rep room saved =>
    obtain ⟨ok, s1, he, _, hno⟩ := post_accepts_iff c rep room saved s
    simp only [step, he, Out.bind] at h
    have h : s1 = s' := by cases h; rfl
    subst h
    cases ok with
    | false => rw [hno rfl]; exact ⟨fun k hk => .inl hk, fun _ => rfl⟩
    | true =>
      have hl := (post_effect c rep room saved s s1 he).2.2.1
      obtain ⟨_, hs⟩ := accepted_state c rep room saved s s1 he
      refine ⟨fun k hk => .inl (by rw [← hl]; exact hk), fun _ => ?_⟩
      rw [hs, (dump_swu c saved _).2.2.2.1, (execute_swu room _).2.2.1]
  | wait dt =>
    cases h
    unfold wait
    simp only
    cases s.timer with
    | none => exact ⟨fun k hk => .inl hk, fun _ => rfl⟩
    | some t =>
      simp only
      split
      · refine ⟨?_, fun _ => rfl⟩
        intro k hk
        simp only [perform, List.mem_append] at hk
        rcases hk with hk | hk
        · exact .inl hk
        · split at hk
          · simp only [List.mem_cons, List.not_mem_nil, or_false] at hk
            exact .inr (by rw [hk]; rfl)
          · cases hk
      · exact ⟨fun k hk => .inl hk, fun _ => rfl⟩
  | flush saved =>
    simp only [step, Out.ok.injEq] at h
    subst h
    cases s.dirty with
    | false => exact ⟨fun k hk => .inl hk, fun _ => rfl⟩
    | true =>
      have hd := dump_swu c saved s
      refine ⟨fun k hk => .inl ?_, fun _ => hd.2.2.2.1⟩
      have : k ∈ (dump c saved s).log := hk
      rwa [hd.2.2.2.2.1] at this
  | available v r =>
    cases h
    unfold available
    simp only
    split
    · refine ⟨?_, fun _ => rfl⟩
      intro k hk
      simp only [perform, List.mem_append] at hk
      rcases hk with hk | hk
      · exact .inl hk
      · split at hk
        · simp only [List.mem_cons, List.not_mem_nil, or_false] at hk
          exact .inr (by rw [hk]; rfl)
        · cases hk
    · exact ⟨fun k hk => .inl hk, fun _ => rfl⟩
  | downloaded r =>
    cases h
    unfold downloaded
    simp only
    split
    · refine ⟨?_, fun _ => rfl⟩
      intro k hk
      simp only [perform, List.mem_append] at hk
      rcases hk with hk | hk
      · exact .inl hk
      · split at hk
        · simp only [List.mem_cons, List.not_mem_nil, or_false] at hk
          exact .inr (by rw [hk]; rfl)
        · cases hk
    · exact ⟨fun k hk => .inl hk, fun _ => rfl⟩
  | upgrading v t r => cases h; exact ⟨fun k hk => .inl hk, fun _ => rfl⟩
  | done r => cases h; exact ⟨fun k hk => .inl hk, fun _ => rfl⟩
  | target a =>
    cases h
    refine ⟨?_, fun _ => rfl⟩
    intro k hk
    simp only [perform, List.mem_append] at hk
    rcases hk with hk | hk
    · exact .inl hk
    · split at hk
      · simp only [List.mem_cons, List.not_mem_nil, or_false] at hk
        exact .inr (by rw [hk]; rfl)
      · cases hk
  | setImpl i => cases h; exact ⟨fun k hk => .inl hk, fun hi => absurd rfl (hi i)⟩
  | restart dt room saved =>
    simp only [step] at h
    unfold load at h
    simp only at h
    have hdef : ∀ s0 : St, (default c saved s0).log = s0.log ∧ (default c saved s0).impl = s0.impl := by
      intro s0
      unfold default
      exact ⟨(dump_swu c saved _).2.2.2.2.1, (dump_swu c saved _).2.2.2.1⟩
    split at h
    · cases h
      exact ⟨fun k hk => .inl (by rw [(hdef _).1] at hk; exact hk), fun _ => (hdef _).2⟩
    · next rep hr =>
      cases hd : decode c s.impl (s.now + dt) true false (({} : Swu).purl.isSome) none rep with
      | ub => rw [hd] at h; cases h
      | ok x =>
        rw [hd] at h
        simp only [Out.bind] at h
        split at h
        · cases h
          refine ⟨fun k hk => .inl ?_, fun _ => (execute_swu room _).2.2.1⟩
          rw [(execute_swu room _).2.2.2.1] at hk
          exact hk
        · cases h
          exact ⟨fun k hk => .inl (by rw [(hdef _).1] at hk; exact hk), fun _ => (hdef _).2⟩

/-- Partial: in every history, restarts included, every URL with which the application
is called to check for, download or perform an update is one that a check of the
application accepted, or is empty or null (`empty_url_false`, `null_url_false`). -/
theorem urls_checked_partial (c : Clk) (hc : c.Ok) (V : Bytes → Prop) (ops : List Op) (hf : ∀ op ∈ ops, Fits op)
    (hV : ∀ i, .setImpl i ∈ ops → ∀ f, i.validate = some f → ∀ u, f u = true → V u) :
    ∃ s, run c {} ops = .ok s ∧ ∀ k ∈ s.log, ∀ u, k.url = some u → u = [] ∨ V u := by
  suffices h : ∀ s : St, Inv c (UrlOk V) s → (∀ f, s.impl.validate = some f → ∀ u, f u = true → V u) →
      (∀ k ∈ s.log, ∀ u, k.url = some u → u = [] ∨ V u) →
      ∃ s', run c s ops = .ok s' ∧ ∀ k ∈ s'.log, ∀ u, k.url = some u → u = [] ∨ V u by
    refine h {} ⟨(stable_url c V).start.1, by intro r h; cases h⟩ (by intro f h; cases h) (by intro k h; cases h)
  induction ops with
  | nil => intro s _ _ hl; exact ⟨s, rfl, hl⟩
  | cons op ops ih =>
    intro s hi hv hl
    obtain ⟨s1, h1, h2⟩ := inv_step c hc _ (stable_url c V) s op (hf op List.mem_cons_self) (by
      rintro rep room saved s' rfl hp
      have hw := (post_effect c rep room saved s s' hp).1
      obtain ⟨ok, s2, he, hacc, _⟩ := post_accepts_iff c rep room saved s
      rw [hp] at he
      cases he
      have ha := hacc.1 rfl
      refine ⟨by rw [post_result c rep room saved s s' hp]; exact hi.swu.1, ?_⟩
      intro u hu
      rw [hw.purl] at hu
      obtain ⟨u', hu', hx⟩ := ha.purl
      rw [hu'] at hu
      cases hu
      rcases hx with ⟨f, hf1, hf2⟩ | ⟨hz, _⟩
      · exact .inr (hv f hf1 _ hf2)
      · exact .inl hz) hi
    obtain ⟨h3, h4⟩ := step_log c s s1 op h1
    simp only [run, h1, Out.bind]
    refine ih (fun o ho => hf o (List.mem_cons_of_mem _ ho)) (fun i hi => hV i (List.mem_cons_of_mem _ hi)) s1 h2 ?_ ?_
    · by_cases hsi : ∃ i, op = .setImpl i
      · obtain ⟨i, rfl⟩ := hsi
        cases h1
        exact hV i List.mem_cons_self
      · rw [h4 (fun i hi => hsi ⟨i, hi⟩)]; exact hv
    · intro k hk u hu
      rcases h3 k hk with h | h
      · exact hl k h u hu
      · rw [h] at hu
        cases hp : s1.swu.purl with
        | none => rw [hp] at hu; cases hu
        | some p =>
          rw [hp] at hu
          cases hu
          exact h2.swu.2 p hp

/-! ### Time -/

/-- Steps that do not concern the arranged action: time passing, saving, a report of
the upgrade, and requests that no device accepts. -/
inductive Quiet (c : Clk) : Op → Prop where
  | wait (dt : Nat) : Quiet c (.wait dt)
  | flush (saved : Bool) : Quiet c (.flush saved)
  | upgrading (v : Bytes) (t : Nat) (r : Int) : Quiet c (.upgrading v t r)
  | refused (rep : Rep) (room saved : Bool) (p : Bytes × Val) : p ∈ rep → ¬ Good c.parse p → Quiet c (.post rep room saved)

/-- Some time is waited for, be it zero. -/
def Waits (ops : List Op) : Prop := ∃ dt, Op.wait dt ∈ ops

theorem quiet_step (c : Clk) (s : St) (op : Op) (hq : Quiet c op) :
    ∃ s', step c s op = .ok s' ∧ s'.swu.action = s.swu.action ∧ s'.swu.purl = s.swu.purl ∧ s'.impl = s.impl ∧
      s.now ≤ s'.now ∧
      ((∀ dt, op ≠ .wait dt) → s'.timer = s.timer ∧ s'.log = s.log ∧ s'.now = s.now) ∧
      (∀ dt, op = .wait dt → s' = wait dt s) := by
  cases hq with
  | wait dt =>
    refine ⟨_, rfl, ?_⟩
    have : (wait dt s).swu.action = s.swu.action ∧ (wait dt s).swu.purl = s.swu.purl ∧ (wait dt s).impl = s.impl ∧
        (wait dt s).now = s.now + dt := by
      unfold wait
      simp only
      cases s.timer with
      | none => simp
      | some t =>
        simp only
        split <;> simp [perform]
    exact ⟨this.1, this.2.1, this.2.2.1, by omega, fun h => absurd rfl (h dt), fun dt' h => by cases h; rfl⟩
  | flush saved =>
    refine ⟨_, rfl, ?_⟩
    cases s.dirty with
    | false => exact ⟨rfl, rfl, rfl, Nat.le_refl _, fun _ => ⟨rfl, rfl, rfl⟩, fun dt h => by cases h⟩
    | true =>
      have hd := dump_swu c saved s
      refine ⟨?_, ?_, hd.2.2.2.1, ?_, fun _ => ⟨hd.2.1, hd.2.2.2.2.1, hd.2.2.1⟩, fun dt h => by cases h⟩
      · exact congrArg (·.action) hd.1
      · exact congrArg (·.purl) hd.1
      · exact Nat.le_of_eq hd.2.2.1.symm
  | upgrading v t r =>
    exact ⟨_, rfl, rfl, rfl, rfl, Nat.le_refl _, fun _ => ⟨rfl, rfl, rfl⟩, fun dt h => by cases h⟩
  | refused rep room saved p hp hg =>
    obtain ⟨ok, s1, he, hacc, hno⟩ := post_accepts_iff c rep room saved s
    cases ok with
    | true => exact absurd ((hacc.1 rfl).good p hp) hg
    | false =>
      have := hno rfl
      subst this
      refine ⟨s1, by simp [step, he, Out.bind], rfl, rfl, rfl, Nat.le_refl _, fun _ => ⟨rfl, rfl, rfl⟩, fun dt h => by cases h⟩

/-- Once performed, nothing more happens by itself. -/
theorem quiet_done (c : Clk) (ops : List Op) (hq : ∀ op ∈ ops, Quiet c op) : ∀ s : St, s.timer = none →
    ∃ s', run c s ops = .ok s' ∧ s'.log = s.log ∧ s'.timer = none ∧ s.now ≤ s'.now := by
  induction ops with
  | nil => intro s h; exact ⟨s, rfl, rfl, h, Nat.le_refl _⟩
  | cons op ops ih =>
    intro s h
    obtain ⟨s1, h1, _, _, _, hn, h2, h3⟩ := quiet_step c s op (hq op List.mem_cons_self)
    have hs : s1.log = s.log ∧ s1.timer = none := by
      by_cases hw : ∃ dt, op = .wait dt
      · obtain ⟨dt, rfl⟩ := hw
        rw [h3 dt rfl]
        simp [wait, h]
      · have := h2 (fun dt hd => hw ⟨dt, hd⟩)
        exact ⟨this.2.1, by rw [this.1]; exact h⟩
    obtain ⟨s', h4, h5, h6, h7⟩ := ih (fun o ho => hq o (List.mem_cons_of_mem _ ho)) s1 hs.2
    simp only [run, h1, Out.bind]
    exact ⟨s', h4, by rw [h5, hs.1], h6, by omega⟩

/-- An action that is arranged for a time is performed once: not before that time, and
at the first moment after it at which the callbacks are polled, with the URL of the
request, whatever else happens that does not concern it. -/
theorem performed_once (c : Clk) (ops : List Op) (hq : ∀ op ∈ ops, Quiet c op) : ∀ (s : St) (t : Nat),
    s.timer = some t → s.impl.has s.swu.action = true →
    ∃ s', run c s ops = .ok s' ∧
      ((s'.now < t ∨ ¬ Waits ops) → s'.log = s.log ∧ s'.timer = some t) ∧
      ((t ≤ s'.now ∧ Waits ops) → ∃ at_, t ≤ at_ ∧ at_ ≤ s'.now ∧ s'.timer = none ∧
        s'.log = s.log ++ [⟨s.swu.action, s.swu.purl.map cstr, at_⟩]) ∧ s.now ≤ s'.now := by
  induction ops with
  | nil =>
    intro s t ht hi
    exact ⟨s, rfl, fun _ => ⟨rfl, ht⟩, fun h => (by obtain ⟨dt, hd⟩ := h.2; cases hd), Nat.le_refl _⟩
  | cons op ops ih =>
    intro s t ht hi
    have hq' : ∀ o ∈ ops, Quiet c o := fun o ho => hq o (List.mem_cons_of_mem _ ho)
    obtain ⟨s1, h1, ha, hp, him, hn, h2, h3⟩ := quiet_step c s op (hq op List.mem_cons_self)
    simp only [run, h1, Out.bind]
    by_cases hw : ∃ dt, op = .wait dt
    · obtain ⟨dt, rfl⟩ := hw
      have hs1 := h3 dt rfl
      by_cases hd : t ≤ s.now + dt
      · -- due now
        have e : s1.timer = none ∧ s1.now = s.now + dt ∧
            s1.log = s.log ++ [⟨s.swu.action, s.swu.purl.map cstr, s.now + dt⟩] := by
          rw [hs1]
          simp [wait, ht, hd, perform, hi]
        obtain ⟨s', h4, h5, h6, h7⟩ := quiet_done c ops hq' s1 e.1
        refine ⟨s', h4, ?_, fun _ => ⟨s.now + dt, hd, by omega, h6, by rw [h5, e.2.2]⟩, by omega⟩
        rintro (h | h)
        · omega
        · exact absurd ⟨dt, List.mem_cons_self⟩ h
      · have e : s1.timer = some t ∧ s1.now = s.now + dt ∧ s1.log = s.log := by
          rw [hs1]
          simp [wait, ht, hd]
        obtain ⟨s', h4, h5, h6, h7⟩ := ih hq' s1 t e.1 (by rw [ha, him]; exact hi)
        refine ⟨s', h4, ?_, ?_, by omega⟩
        · intro h
          rw [← e.2.2]
          refine h5 ?_
          rcases h with h | h
          · exact .inl h
          · exact absurd ⟨dt, List.mem_cons_self⟩ h
        · rintro ⟨hle, _⟩
          by_cases hwo : Waits ops
          · have := h6 ⟨hle, hwo⟩
            rwa [ha, hp, e.2.2] at this
          · -- no further waiting, so the time does not come
            exfalso
            have hstay : ∀ (os : List Op) (x x' : St), (∀ o ∈ os, Quiet c o) → ¬ Waits os → run c x os = .ok x' →
                x'.now = x.now := by
              intro os
              induction os with
              | nil => intro x x' _ _ h; cases h; rfl
              | cons o os ih2 =>
                intro x x' hqs hnw hr
                obtain ⟨x1, g1, _, _, _, _, g2, _⟩ := quiet_step c x o (hqs o List.mem_cons_self)
                simp only [run, g1, Out.bind] at hr
                rw [ih2 x1 x' (fun q hq => hqs q (List.mem_cons_of_mem _ hq))
                  (fun hw => hnw (by obtain ⟨d, hd⟩ := hw; exact ⟨d, List.mem_cons_of_mem _ hd⟩)) hr]
                exact (g2 (fun d hd => hnw ⟨d, by rw [hd]; exact List.mem_cons_self⟩)).2.2
            have := hstay ops s1 s' hq' hwo h4
            omega
    · have e := h2 (fun dt hd => hw ⟨dt, hd⟩)
      obtain ⟨s', h4, h5, h6, h7⟩ := ih hq' s1 t (by rw [e.1]; exact ht) (by rw [ha, him]; exact hi)
      have hwe : Waits (op :: ops) ↔ Waits ops := by
        constructor
        · rintro ⟨dt, hd⟩
          rcases List.mem_cons.1 hd with rfl | hd
          · exact absurd ⟨dt, rfl⟩ hw
          · exact ⟨dt, hd⟩
        · rintro ⟨dt, hd⟩; exact ⟨dt, List.mem_cons_of_mem _ hd⟩
      refine ⟨s', h4, ?_, ?_, by omega⟩
      · rw [hwe, ← e.2.1]; exact h5
      · rw [hwe]
        intro h
        have := h6 h
        rwa [ha, hp, e.2.1] at this

/-! ### Restarts -/

theorem normal_encode (c : Clk) (w : Swu) : encode c true (normal w) = encode c true w := by
  simp [encode, normal, text, cstr_idem]

/-- Steps after which what is stored is current: no write fails, and the target mode
is not used (`target_not_saved_false`). -/
def Saves : Op → Prop
  | .post _ _ saved | .flush saved | .restart _ _ saved => saved = true
  | .target _ => False
  | _ => True

/-- The storage holds the resource, unless a save is pending or the resource has a
time that cannot be written. -/
def Current (c : Clk) (s : St) : Prop :=
  s.dirty = true ∨ encode c true s.swu = none ∨ s.store = encode c true s.swu

theorem current_dump (c : Clk) (s : St) : Current c { dump c true s with dirty := false } ∧ Current c (dump c true s) := by
  unfold Current dump
  cases he : encode c true s.swu with
  | none => exact ⟨.inr (.inl he), .inr (.inl he)⟩
  | some r => exact ⟨.inr (.inr he.symm), .inr (.inr he.symm)⟩

theorem current_step (c : Clk) (hc : c.Ok) (s s' : St) (op : Op) (hs : Saves op)
    (hi : Inv c (fun w => w.result ≤ intMax) s) (h : step c s op = .ok s')
    (hcur : Current c s ∨ ∃ dt room saved, op = .restart dt room saved) : Current c s' := by
  cases op with
  | post rep room saved =>
    have hcur : Current c s := by rcases hcur with h | ⟨_, _, _, h⟩; exact h; cases h
    obtain ⟨ok, s1, he, _, hno⟩ := post_accepts_iff c rep room saved s
    simp only [step, he, Out.bind] at h
    have h : s1 = s' := by cases h; rfl
    subst h
    cases ok with
    | false => rw [hno rfl]; exact hcur
    | true =>
      obtain ⟨_, hst⟩ := accepted_state c rep room saved s s1 he
      have : saved = true := hs
      subst this
      rw [hst]
      exact (current_dump c _).2
  | wait dt =>
    have hcur : Current c s := by rcases hcur with h | ⟨_, _, _, h⟩; exact h; cases h
    cases h
    have : (wait dt s).swu = s.swu ∧ (wait dt s).store = s.store ∧ (wait dt s).dirty = s.dirty := by
      unfold wait
      simp only
      cases s.timer with
      | none => simp
      | some t =>
        simp only
        split <;> simp [perform]
    unfold Current at hcur ⊢
    rw [this.1, this.2.1, this.2.2]; exact hcur
  | flush saved =>
    have hcur' : Current c s := by rcases hcur with h | ⟨_, _, _, h⟩; exact h; cases h
    have : saved = true := hs
    subst this
    simp only [step, Out.ok.injEq] at h
    subst h
    cases hd : s.dirty with
    | false => exact hcur'
    | true => exact (current_dump c s).1
  | available v r =>
    cases h
    refine .inl ?_
    unfold available
    simp only
    split <;> rfl
  | downloaded r =>
    cases h
    refine .inl ?_
    unfold downloaded
    simp only
    split <;> rfl
  | upgrading v t r => cases h; exact .inl rfl
  | done r => cases h; exact .inl rfl
  | target a => cases hs
  | setImpl i =>
    have hcur : Current c s := by rcases hcur with h | ⟨_, _, _, h⟩; exact h; cases h
    cases h; exact hcur
  | restart dt room saved =>
    have : saved = true := hs
    subst this
    simp only [step] at h
    rcases load_eq c hc _ (stable_int c) room true { s with swu := {}, timer := none, dirty := false, now := s.now + dt }
      rfl hi.store with ⟨_, hl⟩ | ⟨w, r, hst, he, hw, hl⟩
    · rw [hl] at h; cases h
      exact (current_dump c _).2
    · rw [hl] at h; cases h
      refine .inr (.inr ?_)
      have hx := execute_swu room { s with swu := normal w, timer := none, dirty := false, now := s.now + dt }
      rw [hx.1, hx.2.2.2.2.2, normal_encode, he]
      exact hst

/-- Partial: in every history of a device that was started, restarts included, in
which no write fails, the storage holds the current resource whenever no save is
pending, unless it has a time after the year 9999.  Not so after a change by the
target mode (`target_not_saved_false`). -/
theorem stored_partial (c : Clk) (hc : c.Ok) (dt : Nat) (room : Bool) (ops : List Op) (hf : ∀ op ∈ ops, Fits op)
    (hs : ∀ op ∈ ops, Saves op) :
    ∃ s, run c {} (.restart dt room true :: ops) = .ok s ∧ Current c s ∧ Inv c (fun w => w.result ≤ intMax) s := by
  have hstep : ∀ (os : List Op) (x : St), (∀ op ∈ os, Fits op) → (∀ op ∈ os, Saves op) →
      Inv c (fun w => w.result ≤ intMax) x → Current c x →
      ∃ s, run c x os = .ok s ∧ Current c s ∧ Inv c (fun w => w.result ≤ intMax) s := by
    intro os
    induction os with
    | nil => intro x _ _ hi hx; exact ⟨x, rfl, hx, hi⟩
    | cons op os ih =>
      intro x hf hs hi hx
      obtain ⟨s1, h1, h2⟩ := inv_step c hc _ (stable_int c) x op (hf op List.mem_cons_self)
        (fun rep room saved s' _ hp => by rw [post_result c rep room saved x s' hp]; exact hi.swu) hi
      simp only [run, h1, Out.bind]
      exact ih s1 (fun o ho => hf o (List.mem_cons_of_mem _ ho)) (fun o ho => hs o (List.mem_cons_of_mem _ ho)) h2
        (current_step c hc x s1 op (hs op List.mem_cons_self) hi h1 (.inl hx))
  have hi0 : Inv c (fun w => w.result ≤ intMax) {} := ⟨by decide, by intro r h; cases h⟩
  obtain ⟨s1, h1, h2⟩ := inv_step c hc _ (stable_int c) {} (.restart dt room true) trivial
    (fun rep room saved s' hx => by cases hx) hi0
  have hcur := current_step c hc {} s1 (.restart dt room true) rfl hi0 h1 (.inr ⟨_, _, _, rfl⟩)
  simp only [run, h1, Out.bind]
  exact hstep ops s1 hf hs h2 hcur

/-- A device whose resource is stored starts again with it, whenever it stops, and
arranges the action again: for its time, or for now if that has passed. -/
theorem restart_resumes (c : Clk) (hc : c.Ok) (s : St) (hi : s.swu.result ≤ intMax) (r : Rep)
    (he : encode c true s.swu = some r) (hst : s.store = some r) (dt : Nat) (room saved : Bool) :
    ∃ s', step c s (.restart dt room saved) = .ok s' ∧ s'.swu = normal s.swu ∧ s'.log = s.log ∧ s'.now = s.now + dt ∧
      s'.timer = (if s.swu.action = .idle ∨ s.swu.time = 0 ∨ room = false then none
        else some (max s.swu.time (s.now + dt))) := by
  obtain ⟨d, hd, hcp⟩ := decode_stored c hc s.impl (s.now + dt) false s.swu r hi he
  simp only [step, load, hst]
  rw [show ({} : Swu).purl.isSome = false from rfl, hd]
  simp only [Out.bind, if_true, hcp]
  have hx := execute_swu room { s with swu := normal s.swu, timer := none, dirty := false, now := s.now + dt, store := some r }
  refine ⟨_, rfl, hx.1, hx.2.2.2.1, hx.2.1, ?_⟩
  unfold execute
  simp only [normal]
  by_cases ha : s.swu.action = .idle
  · simp [ha]
  · by_cases hb : s.swu.time = 0
    · simp [hb]
    · cases room <;> simp [ha, hb]

/-! ### Examples and disagreements -/

/-- An application that accepts URLs that start with `h` and has all callbacks. -/
def exImpl : Impl := ⟨some fun u => u.head? == some 104, true, true, true⟩

/-- A request to upgrade from a URL at a time. -/
def exReq (url time : String) : Rep :=
  [(b "purl", .str (b url)), (b "swupdateaction", .str (b "upgrade")), (b "updatetime", .str (b time))]

/-- Outcome of a history on a device that was just started at the given time. -/
def exRun (ops : List Op) : Out (Swu × List Call × Option Nat) :=
  (run (clk 1000000) {} (.setImpl exImpl :: .restart 1700000000000000 true true :: ops)).bind fun s =>
  .ok (s.swu, s.log, s.timer)

/-- A request for a time, a restart in between: performed once, then. -/
example : exRun [.post (exReq "http" "2023-11-14T22:13:30Z") true true, .wait 4000000, .restart 1000000 true true,
      .wait 4000000, .wait 1000000, .wait 7] =
    .ok ({ purl := some (b "http"), nv := some [], signage := some (b "vendor"), action := .upgrade,
           time := 1700000010000000 }, [⟨.upgrade, some (b "http"), 1700000010000000⟩], none) := by decide +kernel

/-- `stored_partial` and `urls_checked_partial` have histories that meet them. -/
example : (∀ op ∈ [Op.post (exReq "http" "now") true true, .wait 0, .available (b "2") 1, .flush true], Fits op ∧ Saves op) ∧
    (clk 1000000).Ok := by
  refine ⟨?_, clk_ok _ (by decide) ⟨1000, by decide⟩ (by decide)⟩
  intro op h
  simp only [List.mem_cons, List.not_mem_nil, or_false] at h
  rcases h with rfl | rfl | rfl | rfl
  · exact ⟨trivial, rfl⟩
  · exact ⟨trivial, trivial⟩
  · exact ⟨by show (1 : Int) ≤ intMax; decide, trivial⟩
  · exact ⟨trivial, rfl⟩

/-- Disagreement: a request with an empty URL, which is to keep the URL of the device
(comment at api/oc_swupdate.c:745-746), replaces it by the empty one, which was never
checked, and the application is called with that. -/
theorem empty_url_false : exRun [.post (exReq "http" "none") true true, .post (exReq "" "now") true true, .wait 0] =
    .ok ({ purl := some [], signage := some (b "vendor"), action := .upgrade, time := 1700000000000000 },
      [⟨.upgrade, some [], 1700000000000000⟩], none) := by decide +kernel

/-- Disagreement: a device that never had a URL refuses a request with an empty one,
but accepts it after a restart, since the null URL was stored as an empty one. -/
theorem never_set_url_false :
    exRun [.post (exReq "" "now") true true, .wait 0] = .ok ({ signage := some (b "vendor") }, [], none) ∧
    exRun [.restart 0 true true, .post (exReq "" "now") true true, .wait 0] =
      .ok ({ purl := some [], nv := some [], signage := some (b "vendor"), action := .upgrade, time := 1700000000000000 },
        [⟨.upgrade, some [], 1700000000000000⟩], none) := by decide +kernel

/-- Disagreement: the target mode starts an upgrade on a device that has no URL: the
application gets a null pointer. -/
theorem null_url_false : exRun [.target .upgrade] =
    .ok ({ signage := some (b "vendor"), action := .upgrade }, [⟨.upgrade, none, 1700000000000000⟩], none) := by
  decide +kernel

/-- Disagreement: a time before 1970 is not refused as past; the action is arranged
for hundreds of thousands of years later, and the resource cannot be encoded any
more, neither for an answer nor for the storage, so that a restart brings back what
was before. -/
theorem past_time_false :
    exRun [.post (exReq "http" "1969-12-31T23:59:59Z") true true] =
      .ok ({ purl := some (b "http"), signage := some (b "vendor"), action := .upgrade,
             time := 18446744073708551616 }, [], some 18446744073708551616) ∧
    encode (clk 1000000) false { time := 18446744073708551616 } = none ∧
    exRun [.post (exReq "http" "1969-12-31T23:59:59Z") true true, .restart 0 true true] =
      .ok ({ purl := some [], nv := some [], signage := some (b "vendor") }, [], none) := by decide +kernel

/-- Disagreement: an action arranged for later is lost when the application reports
the end of an earlier one before: at its time nothing is done. -/
theorem arranged_lost_false :
    exRun [.post (exReq "http" "2023-11-14T22:13:30Z") true true, .done 1, .wait 20000000] =
      .ok ({ purl := some (b "http"), signage := some (b "vendor"), result := 1, time := 1700000010000000 }, [], none) := by
  decide +kernel

/-- Disagreement: and it is replaced by another one when the target mode is used in
between: here the upgrade becomes a check for a version. -/
theorem arranged_replaced_false :
    (exRun [.post (exReq "http" "2023-11-14T22:13:30Z") true true, .target .isac, .wait 20000000]).bind
        (fun r => .ok (r.2.1.map (·.action))) = .ok [.isac, .isac] := by decide +kernel

/-- Disagreement: an action of the target mode is not stored; after a restart the
resource is what it was before. -/
theorem target_not_saved_false :
    (exRun [.target .upgrade, .restart 0 true true]).bind (fun r => .ok r.1.action) = .ok .idle := by decide +kernel

end Verif.Swu
