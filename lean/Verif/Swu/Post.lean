import Verif.Swu.Spec

/-!
C119, first part: what a POST request does.
-/

namespace Verif.Swu

open Verif.Rep (b Bytes Val Rep)
open Spec

theorem actionOf_iff (s : Bytes) (a : Action) : actionOf s = some a ↔ (s, a) ∈ actions := by
  constructor
  · intro h
    unfold actionOf at h
    split at h
    · next h1 => cases h; subst h1; decide
    · split at h
      · next h1 => cases h; subst h1; decide
      · split at h
        · next h1 => cases h; subst h1; decide
        · split at h
          · next h1 => cases h; subst h1; decide
          · cases h
  · intro h
    simp only [actions, List.mem_cons, List.not_mem_nil, or_false, Prod.mk.injEq] at h
    rcases h with ⟨rfl, rfl⟩ | ⟨rfl, rfl⟩ | ⟨rfl, rfl⟩ | ⟨rfl, rfl⟩ <;> decide

theorem n1 : b "swupdateaction" ≠ b "nv" := by decide
theorem n2 : b "swupdateaction" ≠ b "signed" := by decide
theorem n3 : b "updatetime" ≠ b "nv" := by decide
theorem n4 : b "updatetime" ≠ b "signed" := by decide
theorem n5 : b "updatetime" ≠ b "swupdateaction" := by decide
theorem n6 : b "updatetime" ≠ b "swupdatestate" := by decide
theorem n7 : b "updatetime" ≠ b "lastupdate" := by decide
theorem n8 : b "purl" ≠ b "nv" := by decide
theorem n9 : b "purl" ≠ b "signed" := by decide
theorem n10 : b "purl" ≠ b "swupdateaction" := by decide
theorem n11 : b "purl" ≠ b "swupdatestate" := by decide
theorem n12 : b "purl" ≠ b "lastupdate" := by decide
theorem n13 : b "purl" ≠ b "updatetime" := by decide

theorem decStr_action (c : Clk) (st : Bool) (d : Dec) (s : Bytes) :
    decStr c st d (b "swupdateaction") s = decAction d s := by
  rw [decStr, if_neg n1, if_neg n2, if_pos rfl]

theorem decStr_time (c : Clk) (st : Bool) (d : Dec) (s : Bytes) :
    decStr c st d (b "updatetime") s = decTime c st d s := by
  rw [decStr, if_neg n3, if_neg n4, if_neg n5, if_neg n6, if_neg n7, if_pos rfl]

theorem decStr_purl (c : Clk) (st : Bool) (d : Dec) (s : Bytes) :
    decStr c st d (b "purl") s = .ok { d with purl := some s } := by
  rw [decStr, if_neg n8, if_neg n9, if_neg n10, if_neg n11, if_neg n12, if_neg n13, if_pos rfl]

/-- The time a text denotes, for the decoder. -/
def timeOf (c : Clk) (s : Bytes) : Option Time :=
  if s = b "none" then some .none
  else if s = b "now" then some .now
  else (c.parse s).map .set

theorem decTime_eq (c : Clk) (d : Dec) (s : Bytes) :
    decTime c false d s = match timeOf c s with | none => .error .value | some t => .ok { d with time := t } := by
  unfold decTime timeOf
  by_cases h1 : s = b "none"
  · rw [if_pos ⟨rfl, h1⟩, if_pos h1]
  · rw [if_neg (fun h => h1 h.2), if_neg h1]
    by_cases h2 : s = b "now"
    · rw [if_pos ⟨rfl, h2⟩, if_pos h2]
    · rw [if_neg (fun h => h2 h.2), if_neg h2]
      cases c.parse s <;> rfl

theorem timeOf_some (c : Clk) (s : Bytes) : (timeOf c s).isSome = true ↔ ∃ now t, TimeIs c.parse now s t := by
  unfold timeOf
  by_cases h1 : s = b "none"
  · rw [if_pos h1, h1]; simp; exact ⟨0, 0, .none⟩
  · rw [if_neg h1]
    by_cases h2 : s = b "now"
    · rw [if_pos h2, h2]; simp; exact ⟨0, 0, .now⟩
    · rw [if_neg h2]
      constructor
      · intro h
        cases hp : c.parse s with
        | none => rw [hp] at h; cases h
        | some t => exact ⟨0, t, .time s t h1 h2 hp⟩
      · rintro ⟨now, t, h⟩
        cases h with
        | none => exact absurd rfl h1
        | now => exact absurd rfl h2
        | time _ _ _ _ hp => rw [hp]; rfl

/-- One property of a request: refused unless a client may send it. -/
theorem decProp_bad (c : Clk) (d : Dec) (p : Bytes × Val) (h : ¬ Good c.parse p) :
    ∃ e, decProp c false d p = .ok (.error e) := by
  obtain ⟨n, v⟩ := p
  cases v with
  | int i =>
    simp only [decProp, decInt]
    split
    · exact ⟨_, rfl⟩
    · exact ⟨_, rfl⟩
  | str s =>
    simp only [decProp]
    by_cases ha : n = b "swupdateaction"
    · subst ha
      rw [decStr_action]
      unfold decAction
      cases hx : actionOf s with
      | none => exact ⟨_, rfl⟩
      | some a => exact absurd (Good.action s a ((actionOf_iff s a).1 hx)) h
    · by_cases ht : n = b "updatetime"
      · subst ht
        rw [decStr_time, decTime_eq]
        cases hx : timeOf c s with
        | none => exact ⟨_, rfl⟩
        | some t =>
          obtain ⟨now, t, ht⟩ := (timeOf_some c s).1 (by rw [hx]; rfl)
          exact absurd (Good.time s now t ht) h
      · by_cases hp : n = b "purl"
        · subst hp; exact absurd (Good.purl s) h
        · unfold decStr
          rw [if_neg ha, if_neg ht, if_neg hp]
          by_cases a1 : n = b "nv"
          · rw [if_pos a1]; exact ⟨_, rfl⟩
          · rw [if_neg a1]
            by_cases a2 : n = b "signed"
            · rw [if_pos a2]; exact ⟨_, rfl⟩
            · rw [if_neg a2]
              by_cases a3 : n = b "swupdatestate"
              · rw [if_pos a3]; exact ⟨_, rfl⟩
              · rw [if_neg a3]
                by_cases a4 : n = b "lastupdate"
                · rw [if_pos a4]; exact ⟨_, rfl⟩
                · rw [if_neg a4]; exact ⟨_, rfl⟩
  | _ => exact ⟨_, rfl⟩

/-- The decoded data after good properties. -/
def decOf (c : Clk) (d : Dec) (rep : Rep) : Dec :=
  { d with
    purl := (last (b "purl") rep) <|> d.purl
    action := ((last (b "swupdateaction") rep).bind actionOf) <|> d.action
    time := ((last (b "updatetime") rep).bind (timeOf c)).getD d.time }

theorem last_cons (name n : Bytes) (s : Bytes) (ps : Rep) :
    last name ((n, .str s) :: ps) = ((last name ps) <|> (if n = name then some s else none)) := by
  simp only [last]
  cases last name ps <;> rfl

/-- In a good representation the last text of a property is acceptable. -/
theorem last_good (ts : Bytes → Option Nat) (rep : Rep) (h : ∀ p ∈ rep, Good ts p) (name s : Bytes)
    (hl : last name rep = some s) : Good ts (name, .str s) := by
  induction rep with
  | nil => cases hl
  | cons p ps ih =>
    obtain ⟨n, v⟩ := p
    have hp := h (n, v) List.mem_cons_self
    cases v with
    | str x =>
      rw [last_cons] at hl
      cases hls : last name ps with
      | some y =>
        rw [hls] at hl
        simp at hl; subst hl
        exact ih (fun q hq => h q (List.mem_cons_of_mem _ hq)) hls
      | none =>
        rw [hls] at hl
        simp at hl
        obtain ⟨rfl, rfl⟩ := hl
        exact hp
    | _ => cases hp

theorem good_action (ts : Bytes → Option Nat) (s : Bytes) (h : Good ts (b "swupdateaction", .str s)) :
    ∃ a, (s, a) ∈ actions := by
  generalize hn : (b "swupdateaction", Val.str s) = p at h
  cases h with
  | action s' a h => cases hn; exact ⟨a, h⟩
  | purl s' => exact absurd (congrArg Prod.fst hn) n10.symm
  | time s' now t h => exact absurd (congrArg Prod.fst hn) n5.symm

theorem good_time (ts : Bytes → Option Nat) (s : Bytes) (h : Good ts (b "updatetime", .str s)) :
    ∃ now t, TimeIs ts now s t := by
  generalize hn : (b "updatetime", Val.str s) = p at h
  cases h with
  | action s' a h => exact absurd (congrArg Prod.fst hn) n5
  | purl s' => exact absurd (congrArg Prod.fst hn) n13.symm
  | time s' now t h => cases hn; exact ⟨now, t, h⟩

theorem decProp_good (c : Clk) (d : Dec) (p : Bytes × Val) (h : Good c.parse p) :
    decProp c false d p = .ok (.ok (decOf c d [p])) := by
  cases h with
  | action s a h =>
    simp only [decProp, decStr_action, decAction, (actionOf_iff s a).2 h]
    simp [decOf, last, (actionOf_iff s a).2 h, n5.symm, n10.symm]
  | purl s =>
    simp only [decProp, decStr_purl]
    simp [decOf, last, n13, n10]
  | time s now t h =>
    have := (timeOf_some c s).2 ⟨now, t, h⟩
    obtain ⟨x, hx⟩ := Option.isSome_iff_exists.1 this
    simp only [decProp, decStr_time, decTime_eq, hx]
    simp [decOf, last, hx, n13.symm, n5]

theorem decOf_cons (c : Clk) (d : Dec) (p : Bytes × Val) (ps : Rep) (hp : Good c.parse p)
    (h : ∀ q ∈ ps, Good c.parse q) : decOf c (decOf c d [p]) ps = decOf c d (p :: ps) := by
  have hs : ∃ n s, p = (n, .str s) := by cases hp <;> exact ⟨_, _, rfl⟩
  obtain ⟨n, s, rfl⟩ := hs
  have e : ∀ name, last name [(n, .str s)] = if n = name then some s else none := fun name => by
    simp [last]
  simp only [decOf, last_cons, e]
  congr 1
  · cases last (b "purl") ps <;> simp
  · cases hl : last (b "swupdateaction") ps with
    | none => simp
    | some x =>
      obtain ⟨a, ha⟩ := good_action c.parse x (last_good _ _ h _ _ hl)
      simp [(actionOf_iff x a).2 ha]
  · cases hl : last (b "updatetime") ps with
    | none => simp
    | some x =>
      have := (timeOf_some c x).2 (good_time c.parse x (last_good _ _ h _ _ hl))
      obtain ⟨y, hy⟩ := Option.isSome_iff_exists.1 this
      simp [hy]

/-- The loop without handler. -/
theorem loop_none (c : Clk) (rep : Rep) : ∀ d : Dec,
    ((∀ p ∈ rep, Good c.parse p) → loop c false none rep { dec := d } = .ok { dec := decOf c d rep }) ∧
    ((¬ ∀ p ∈ rep, Good c.parse p) → ∃ l, loop c false none rep { dec := d } = .ok l ∧ l.done = false) := by
  induction rep with
  | nil =>
    intro d
    refine ⟨fun _ => ?_, fun h => absurd (by simp) h⟩
    simp [loop, decOf, last]
  | cons p ps ih =>
    intro d
    by_cases hp : Good c.parse p
    · simp only [loop, decProp_good c d p hp, Out.bind]
      obtain ⟨h1, h2⟩ := ih (decOf c d [p])
      refine ⟨fun h => ?_, fun h => ?_⟩
      · have hps : ∀ q ∈ ps, Good c.parse q := fun q hq => h q (List.mem_cons_of_mem _ hq)
        rw [h1 hps, decOf_cons c d p ps hp hps]
      · exact h2 (fun hps => h (by
          intro q hq
          rcases List.mem_cons.1 hq with rfl | hq
          · exact hp
          · exact hps q hq))
    · obtain ⟨e, he⟩ := decProp_bad c d p hp
      refine ⟨fun h => absurd (h p List.mem_cons_self) hp, fun _ => ?_⟩
      simp only [loop, he, Out.bind]
      exact ⟨_, rfl, rfl⟩

theorem checkData_none (i : Impl) (now : Nat) (d : Dec) (skip : Bool) :
    (checkData i now d skip none).1 = true ↔ checkTime now d = none ∧ (skip = true ∨ checkPurl i d = none) := by
  unfold checkData
  cases checkTime now d with
  | some e => simp
  | none =>
    cases skip with
    | true => simp
    | false => cases checkPurl i d <;> simp

theorem not_idle (x : Bytes) (a : Action) (h : (x, a) ∈ actions) : a ≠ .idle ↔ x ≠ b "idle" := by
  simp only [actions, List.mem_cons, List.not_mem_nil, or_false, Prod.mk.injEq] at h
  rcases h with ⟨rfl, rfl⟩ | ⟨rfl, rfl⟩ | ⟨rfl, rfl⟩ | ⟨rfl, rfl⟩ <;> decide

/-- The data of a good request passes the checks exactly when the request is
acceptable. -/
theorem check_iff (c : Clk) (i : Impl) (now : Nat) (hasPurl : Bool) (rep : Rep) (hg : ∀ p ∈ rep, Good c.parse p) :
    (checkData i now (decOf c {} rep) (skipPurl hasPurl (decOf c {} rep)) none).1 = true ↔
      Accepts c.parse i.validate now hasPurl rep := by
  rw [checkData_none]
  have ht : checkTime now (decOf c {} rep) = none ↔ ∃ s, last (b "updatetime") rep = some s ∧
      (s = b "none" ∨ s = b "now" ∨ ∃ t, c.parse s = some t ∧ now ≤ t) := by
    simp only [checkTime, decOf]
    cases hl : last (b "updatetime") rep with
    | none => simp
    | some s =>
      simp only [Option.bind_some, timeOf]
      by_cases h1 : s = b "none"
      · simp [h1]
      · rw [if_neg h1]
        by_cases h2 : s = b "now"
        · simp [h2]
        · rw [if_neg h2]
          have := (timeOf_some c s).2 (good_time c.parse s (last_good _ _ hg _ _ hl))
          simp only [timeOf, if_neg h1, if_neg h2] at this
          cases hp : c.parse s with
          | none => rw [hp] at this; cases this
          | some t =>
            simp only [Option.map_some, Option.getD_some]
            by_cases h3 : t < now
            · rw [if_pos h3]
              refine ⟨fun h => (by cases h), ?_⟩
              rintro ⟨s', hs', h⟩
              cases hs'
              rcases h with h | h | ⟨t', ht', hle⟩
              · exact absurd h h1
              · exact absurd h h2
              · rw [hp] at ht'; cases ht'; omega
            · rw [if_neg h3]
              exact ⟨fun _ => ⟨s, rfl, .inr (.inr ⟨t, hp, by omega⟩)⟩, fun _ => rfl⟩
  have hu : (skipPurl hasPurl (decOf c {} rep) = true ∨ checkPurl i (decOf c {} rep) = none) ↔
      ∃ u, last (b "purl") rep = some u ∧
        ((∃ f, i.validate = some f ∧ f (cstr u) = true) ∨
         (cstr u = [] ∧ hasPurl = true ∧ ∃ x, last (b "swupdateaction") rep = some x ∧ x ≠ b "idle")) := by
    have hsk : skipPurl hasPurl (decOf c {} rep) = true ↔ ∃ u, last (b "purl") rep = some u ∧
        (cstr u = [] ∧ hasPurl = true ∧ ∃ x, last (b "swupdateaction") rep = some x ∧ x ≠ b "idle") := by
      simp only [skipPurl, decOf, Option.orElse_eq_orElse]
      cases hl : last (b "swupdateaction") rep with
      | none => simp
      | some x =>
        obtain ⟨a, ha⟩ := good_action c.parse x (last_good _ _ hg _ _ hl)
        rw [Option.bind_some, (actionOf_iff x a).2 ha]
        cases hl2 : last (b "purl") rep with
        | none => simp
        | some u =>
          simp [not_idle x a ha]
          constructor
          · rintro ⟨⟨h1, h2⟩, h3⟩; exact ⟨h2, h3, h1⟩
          · rintro ⟨h2, h3, h1⟩; exact ⟨⟨h1, h2⟩, h3⟩
    have hck : checkPurl i (decOf c {} rep) = none ↔ ∃ u, last (b "purl") rep = some u ∧
        (∃ f, i.validate = some f ∧ f (cstr u) = true) := by
      simp only [checkPurl, decOf, Option.orElse_eq_orElse]
      cases hl : last (b "purl") rep with
      | none => simp
      | some u =>
        cases hv : i.validate with
        | none => simp
        | some f => simp
    rw [hsk, hck]
    constructor
    · rintro (⟨u, h1, h2⟩ | ⟨u, h1, h2⟩)
      · exact ⟨u, h1, .inr h2⟩
      · exact ⟨u, h1, .inl h2⟩
    · rintro ⟨u, h1, h2 | h2⟩
      · exact .inr ⟨u, h1, h2⟩
      · exact .inl ⟨u, h1, h2⟩
  rw [ht, hu]
  exact ⟨fun h => ⟨hg, h.1, h.2⟩, fun h => ⟨h.time, h.purl⟩⟩

/-- For every request, device and time, the request is answered without undefined
behaviour, and accepted exactly when it is acceptable; a request that is not accepted
changes nothing. -/
theorem post_accepts_iff (c : Clk) (rep : Rep) (room saved : Bool) (s : St) :
    ∃ ok s', post c rep room saved s = .ok (ok, s') ∧
      (ok = true ↔ Accepts c.parse s.impl.validate s.now s.swu.purl.isSome rep) ∧ (ok = false → s' = s) := by
  unfold post decode
  obtain ⟨h1, h2⟩ := loop_none c rep {}
  by_cases hg : ∀ p ∈ rep, Good c.parse p
  · have e := h1 hg
    rw [show ({ dec := {} } : Loop) = {} from rfl] at e
    rw [e]
    simp only [Out.bind, Bool.not_true, Bool.false_eq_true, if_false, Bool.or_self]
    have hc := check_iff c s.impl s.now s.swu.purl.isSome rep hg
    by_cases hx : (checkData s.impl s.now (decOf c {} rep) (skipPurl s.swu.purl.isSome (decOf c {} rep)) none).1 = true
    · rw [if_pos hx]
      exact ⟨true, _, rfl, ⟨fun _ => hc.1 hx, fun _ => rfl⟩, fun h => by cases h⟩
    · rw [if_neg hx]
      exact ⟨false, s, rfl, ⟨fun h => (by cases h), fun h => absurd (hc.2 h) hx⟩, fun _ => rfl⟩
  · obtain ⟨l, hl, hd⟩ := h2 hg
    rw [show ({ dec := {} } : Loop) = {} from rfl] at hl
    rw [hl]
    simp only [Out.bind, hd, Bool.not_false, if_true, Bool.false_eq_true, if_false]
    exact ⟨false, s, rfl, ⟨fun h => (by cases h), fun h => absurd h.good hg⟩, fun _ => rfl⟩

theorem accepted_state (c : Clk) (rep : Rep) (room saved : Bool) (s s' : St)
    (h : post c rep room saved s = .ok (true, s')) :
    (∀ p ∈ rep, Good c.parse p) ∧
    s' = dump c saved (execute room { s with swu := copy s.now (decOf c {} rep) s.swu }) := by
  unfold post decode at h
  obtain ⟨h1, h2⟩ := loop_none c rep {}
  by_cases hg : ∀ p ∈ rep, Good c.parse p
  · have e := h1 hg
    rw [show ({ dec := {} } : Loop) = {} from rfl] at e
    rw [e] at h
    simp only [Out.bind, Bool.not_true, Bool.false_eq_true, if_false, Bool.or_self] at h
    refine ⟨hg, ?_⟩
    split at h
    · cases h; rfl
    · cases h
  · obtain ⟨l, hl, hd⟩ := h2 hg
    rw [show ({ dec := {} } : Loop) = {} from rfl] at hl
    rw [hl] at h
    simp [Out.bind, hd] at h

theorem dump_swu (c : Clk) (saved : Bool) (s : St) : (dump c saved s).swu = s.swu ∧ (dump c saved s).timer = s.timer ∧
    (dump c saved s).now = s.now ∧ (dump c saved s).impl = s.impl ∧ (dump c saved s).log = s.log ∧
    (dump c saved s).dirty = s.dirty := by
  unfold dump
  cases encode c true s.swu with
  | none => simp
  | some r => cases saved <;> simp

theorem execute_swu (room : Bool) (s : St) : (execute room s).swu = s.swu ∧ (execute room s).now = s.now ∧
    (execute room s).impl = s.impl ∧ (execute room s).log = s.log ∧ (execute room s).dirty = s.dirty ∧
    (execute room s).store = s.store := by
  unfold execute
  split <;> simp

/-- An accepted request sets the URL, the action and the time that it names last and
nothing else, and arranges for the action at that time, in place of what was arranged
before; an idle action or the time `none` cancels. -/
theorem post_effect (c : Clk) (rep : Rep) (room saved : Bool) (s s' : St)
    (h : post c rep room saved s = .ok (true, s')) :
    Updated c.parse s.now rep s.swu s'.swu ∧ s'.now = s.now ∧ s'.log = s.log ∧
    s'.timer = (if s'.swu.action = .idle ∨ s'.swu.time = 0 ∨ room = false then none else some (max s'.swu.time s.now)) := by
  obtain ⟨ok, s1, he, hacc, _⟩ := post_accepts_iff c rep room saved s
  rw [h] at he
  simp only [Out.ok.injEq, Prod.mk.injEq] at he
  obtain ⟨rfl, rfl⟩ := he
  have ha := hacc.1 rfl
  obtain ⟨hg, hs⟩ := accepted_state c rep room saved s s' h
  have hd := dump_swu c saved (execute room { s with swu := copy s.now (decOf c {} rep) s.swu })
  have hx := execute_swu room { s with swu := copy s.now (decOf c {} rep) s.swu }
  have hw : s'.swu = copy s.now (decOf c {} rep) s.swu := by rw [hs, hd.1, hx.1]
  refine ⟨?_, by rw [hs, hd.2.2.1, hx.2.1], by rw [hs, hd.2.2.2.2.1, hx.2.2.2.1], ?_⟩
  · rw [hw]
    refine ⟨?_, ?_, ?_, ?_, ?_⟩
    · obtain ⟨u, hu, _⟩ := ha.purl
      simp [copy, decOf, hu]
    · intro x hx
      obtain ⟨a, ha⟩ := good_action c.parse x (last_good _ _ hg _ _ hx)
      simpa [copy, decOf, hx, (actionOf_iff x a).2 ha] using ha
    · intro hx
      simp [copy, decOf, hx]
    · intro x hx
      have hgt := good_time c.parse x (last_good _ _ hg _ _ hx)
      simp only [copy, decOf, hx, Option.bind_some, timeOf]
      by_cases h1 : x = b "none"
      · rw [if_pos h1, h1]; exact .none
      · rw [if_neg h1]
        by_cases h2 : x = b "now"
        · rw [if_pos h2, h2]; exact .now
        · rw [if_neg h2]
          obtain ⟨n, t, ht⟩ := hgt
          cases ht with
          | none => exact absurd rfl h1
          | now => exact absurd rfl h2
          | time _ _ _ _ hp =>
            rw [hp]
            exact .time x t h1 h2 hp
    · simp [copy, decOf]
  · rw [hw]
    rw [hs, hd.2.1]
    unfold execute
    simp only
    by_cases h1 : (copy s.now (decOf c {} rep) s.swu).action = .idle ∨ (copy s.now (decOf c {} rep) s.swu).time = 0
    · rw [if_pos h1, if_pos (by rcases h1 with h | h <;> simp [h])]
    · rw [if_neg h1]
      cases room with
      | true =>
        have hn : ¬ ((copy s.now (decOf c {} rep) s.swu).action = .idle ∨ (copy s.now (decOf c {} rep) s.swu).time = 0 ∨
            true = false) := by
          rintro (h | h | h)
          · exact h1 (.inl h)
          · exact h1 (.inr h)
          · cases h
        rw [if_neg hn]; rfl
      | false => simp

end Verif.Swu
