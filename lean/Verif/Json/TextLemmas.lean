import Verif.Json.EncLemmas

/-! Lemmas: the calls for a value write its JSON text, and that text denotes the
value. -/

namespace Verif.Json

open Verif.Rep (b)

/-- An encoder that takes a value now: in a map after a key, or in an array. -/
def Slot (s : Sub) : Prop :=
  s.over = none ∧ ((s.map = true ∧ s.key = true ∧ s.array = false) ∨
    (s.map = false ∧ s.array = true ∧ s.key = false))

/-- The encoder after a value with text `t`. -/
def put (s : Sub) (t : List UInt8) : Sub :=
  { s with out := s.out ++ ((separator s).flatten ++ t), key := false, value := true }

/-- Texts of elements that follow others (`v`) or not. -/
def tails (v : Bool) (ts : List (List UInt8)) : List UInt8 :=
  if v then ts.flatMap (fun t => 44 :: t) else commas ts

theorem commas_cons (t : List UInt8) (r : List (List UInt8)) :
    commas (t :: r) = t ++ r.flatMap (fun t => 44 :: t) := by
  induction r generalizing t with
  | nil => simp [commas]
  | cons u r ih =>
    rw [show commas (t :: u :: r) = t ++ 44 :: commas (u :: r) from rfl, ih]
    simp

theorem tails_cons (v : Bool) (t : List UInt8) (r : List (List UInt8)) :
    tails v (t :: r) = (if v then [44] else []) ++ t ++ tails true r := by
  cases v
  · simp [tails, commas_cons]
  · simp [tails]

theorem tails_nil (v : Bool) : tails v [] = [] := by cases v <;> rfl

theorem prun_app : ∀ {o1 o2 : List Op} {st st1 : List Sub}, prun st o1 = some st1 →
    prun st (o1 ++ o2) = prun st1 o2
  | [], o2, st, st1, h => by cases h; rfl
  | op :: o1, o2, st, st1, h => by
    rw [prun] at h
    rw [List.cons_append, prun]
    cases e : pstep op st with
    | none => rw [e] at h; cases h
    | some st2 =>
      rw [e] at h
      exact prun_app h

theorem prun_one {op : Op} {st st1 : List Sub} (h : pstep op st = some st1) (os : List Op) :
    prun st (op :: os) = prun st1 os := by
  rw [prun, h]; rfl

/-- The texts of single calls. -/
def opText : Op → Option (List UInt8)
  | .null => some (b "null")
  | .bool x => some (boolText x)
  | .int i => some (intText i)
  | .text s => some (quote s)
  | _ => none

theorem put_flat (s : Sub) (op : Op) (h : refused s op = false)
    (hop : pstep op (s :: rest) = if refused s op then none
      else some (after { s with out := s.out ++ (separator s ++ body op).flatten } op :: rest))
    (ha : after { s with out := s.out ++ (separator s ++ body op).flatten } op =
      { s with out := s.out ++ (separator s ++ body op).flatten, key := false, value := true }) :
    pstep op (s :: rest) = some (put s (body op).flatten :: rest) := by
  rw [hop, h]
  rw [if_neg (by simp), ha]
  simp only [put, List.flatten_append]

theorem pstep_value {s : Sub} (hs : Slot s) {rest : List Sub} {op : Op} {t : List UInt8}
    (ht : opText op = some t) (hn : ∀ i, op = .int i → Num i) :
    pstep op (s :: rest) = some (put s t :: rest) := by
  have hr : (!s.key && s.map) = false := by
    rcases hs.2 with h | h
    · simp [h.2.1]
    · simp [h.1]
  cases op with
  | null => cases ht; exact put_flat s .null hr rfl rfl
  | bool x => cases ht; cases x <;> exact put_flat s (.bool _) hr rfl rfl
  | int i =>
    cases ht
    have h2 := hn i rfl
    have hb : body (.int i) = [intText i] := rfl
    have := put_flat (rest := rest) s (.int i) (by
      have h3 : ¬ i > 9007199254740992 := by have := h2.2; omega
      have h4 : ¬ i < -4503599627370497 := by have := h2.1; omega
      simp [refused, hr, h3, h4]) rfl rfl
    rw [this, hb]
    simp
  | text x =>
    cases ht
    have := put_flat (rest := rest) s (.text x) rfl rfl (by
      rcases hs.2 with h | h
      · simp [after, afterText, h.1, h.2.1, h.2.2]
      · simp [after, afterText, h.1, h.2.1, h.2.2])
    rw [this]
    simp [body, quote]
  | _ => cases ht

theorem put_slot {s : Sub} (h : s.over = none) (hm : s.map = false) (ha : s.array = true) (t : List UInt8) :
    Slot (put s t) ∧ (put s t).map = false ∧ (put s t).array = true :=
  ⟨⟨h, .inr ⟨hm, ha, rfl⟩⟩, hm, ha⟩

/-- The encoder of an array with elements written or not. -/
def arrSub (out : List UInt8) (v : Bool) : Sub := { out := out, array := true, value := v }

theorem arrSub_slot (out : List UInt8) (v : Bool) : Slot (arrSub out v) :=
  ⟨rfl, .inr ⟨rfl, rfl, rfl⟩⟩

theorem arrSub_put (out : List UInt8) (v : Bool) (t : List UInt8) :
    put (arrSub out v) t = arrSub (out ++ ((if v then [44] else []) ++ t)) true := by
  cases v <;> simp [put, arrSub, separator]

theorem prun_elems : ∀ {os : List Op} {ts : List (List UInt8)} {out : List UInt8} {v : Bool}
    {rest : List Sub}, os.map opText = ts.map some → (∀ i, Op.int i ∈ os → Num i) →
    prun (arrSub out v :: rest) os = some (arrSub (out ++ tails v ts) (v || !ts.isEmpty) :: rest)
  | [], [], out, v, rest, _, _ => by simp [prun, tails_nil]
  | [], t :: ts, _, _, _, h, _ => by simp at h
  | op :: os, [], _, _, _, h, _ => by simp at h
  | op :: os, t :: ts, out, v, rest, h, hn => by
    simp only [List.map_cons, List.cons.injEq] at h
    have h1 := pstep_value (arrSub_slot out v) (rest := rest) h.1 (fun i hi => hn i (by simp [hi]))
    rw [prun_one h1, arrSub_put, prun_elems h.2 (fun i hi => hn i (by simp [hi])), tails_cons]
    simp

theorem prun_arr {s : Sub} (hs : Slot s) {rest : List Sub} {os : List Op} {ts : List (List UInt8)}
    (h : ∀ out, ∃ v, prun (arrSub out false :: put s [91] :: rest) os =
      some (arrSub (out ++ commas ts) v :: put s [91] :: rest)) :
    prun (s :: rest) (.arr :: os ++ [.close]) = some (put s (91 :: commas ts ++ [93]) :: rest) := by
  have hr : refused s .arr = false := by
    rcases hs.2 with h | h
    · simp [refused, h.2.1]
    · simp [refused, h.1]
  have h1 : pstep .arr (s :: rest) =
      some (arrSub (put s [91]).out false :: put s [91] :: rest) := by
    simp only [pstep, hr, Bool.false_eq_true, if_false, opened, hs.1]
    simp [body, put, arrSub, afterValue, hs.1]
  obtain ⟨v, hv⟩ := h (put s [91]).out
  rw [List.cons_append, prun_one h1, prun_app hv, prun_one (st1 := put s (91 :: commas ts ++ [93]) :: rest)]
  · rfl
  · simp [pstep, arrSub, put, hs.1]

/-- The encoder of a map before a key. -/
def mapSub (out : List UInt8) (v : Bool) : Sub := { out := out, map := true, value := v }

theorem prun_map {s : Sub} (hs : s.over = none) (hr : refused s .map = false) {rest : List Sub}
    {os : List Op} {ts : List (List UInt8)}
    (h : ∀ out, ∃ v, prun (mapSub out false :: put s [123] :: rest) os =
      some (mapSub (out ++ commas ts) v :: put s [123] :: rest)) :
    prun (s :: rest) (.map :: os ++ [.close]) = some (put s (123 :: commas ts ++ [125]) :: rest) := by
  have h1 : pstep .map (s :: rest) =
      some (mapSub (put s [123]).out false :: put s [123] :: rest) := by
    simp only [pstep, hr, Bool.false_eq_true, if_false, opened, hs]
    simp [body, put, mapSub, afterValue, hs]
  obtain ⟨v, hv⟩ := h (put s [123]).out
  rw [List.cons_append, prun_one h1, prun_app hv, prun_one (st1 := put s (123 :: commas ts ++ [125]) :: rest)]
  · rfl
  · simp [pstep, mapSub, put, hs]

/-- The encoder of a map after a key. -/
def keySub (out : List UInt8) : Sub := { out := out, map := true, key := true }

theorem pstep_key (out : List UInt8) (v : Bool) (rest : List Sub) (k : List UInt8) :
    pstep (.text k) (mapSub out v :: rest) =
      some (keySub (out ++ ((if v then [44] else []) ++ quote k)) :: rest) := by
  cases v <;> simp [pstep, refused, after, afterText, mapSub, keySub, separator, body, quote]

theorem keySub_slot (out : List UInt8) : Slot (keySub out) := ⟨rfl, .inl ⟨rfl, rfl, rfl⟩⟩

theorem keySub_put (out t : List UInt8) : put (keySub out) t = mapSub (out ++ (58 :: t)) true := by
  simp [put, keySub, mapSub, separator]

theorem slot_map {s : Sub} (hs : Slot s) : refused s .map = false := by
  rcases hs.2 with h | h
  · simp [refused, h.2.1]
  · simp [refused, h.1]

mutual
theorem prun_calls : ∀ {v : Val} {t : List UInt8} {os : List Op} {s : Sub} {rest : List Sub}, Fit v →
    Json v t → Calls v os → Slot s → prun (s :: rest) os = some (put s t :: rest)
  | _, _, _, s, rest, .nil, .nil, .nil, hs => by
    rw [prun_one (pstep_value hs rfl (by simp))]; rfl
  | _, _, _, s, rest, .bool x, .bool _, .bool _, hs => by
    rw [prun_one (pstep_value hs rfl (by simp))]; rfl
  | _, _, _, s, rest, .int i hi, .int _, .int _, hs => by
    rw [prun_one (pstep_value hs rfl (by intro j hj; cases hj; exact hi))]; rfl
  | _, _, _, s, rest, .str x _, .str _, .str _, hs => by
    rw [prun_one (pstep_value hs rfl (by simp))]; rfl
  | _, _, _, s, rest, .bools l _, .bools _, .bools _, hs =>
    prun_arr hs fun out => ⟨_, prun_elems (by simp [Function.comp_def, opText]) (by simp)⟩
  | _, _, _, s, rest, .ints l _ hl, .ints _, .ints _, hs =>
    prun_arr hs fun out => ⟨_, prun_elems (by simp [Function.comp_def, opText])
      (by intro i hi; simp at hi; exact hl i hi)⟩
  | _, _, _, s, rest, .strs l _ _, .strs _, .strs _, hs =>
    prun_arr hs fun out => ⟨_, prun_elems (by simp [Function.comp_def, opText]) (by simp)⟩
  | _, _, _, s, rest, .obj l hl, .obj _ ts ht, .obj _ os ho, hs =>
    prun_map hs.1 (slot_map hs) fun out => ⟨_, prun_members (v := false) hl ht ho⟩
  | _, _, _, s, rest, .objs l _ hl, .objs _ ts ht, .objs _ os ho, hs =>
    prun_arr hs fun out => ⟨_, prun_objects (v := false) hl ht ho⟩
theorem prun_members : ∀ {l} {ts : List (List UInt8)} {os : List Op} {out : List UInt8} {v : Bool}
    {rest : List Sub}, FitM l → JsonM l ts → CallsM l os →
    prun (mapSub out v :: rest) os = some (mapSub (out ++ tails v ts) (v || !ts.isEmpty) :: rest)
  | _, _, _, out, v, rest, .nil, .nil, .nil => by simp [prun, tails_nil]
  | _, _, _, out, v, rest, .cons k x l hk hx hl, .cons _ _ t _ ts ht hts, .cons _ _ o _ os ho hos => by
    rw [List.cons_append, prun_one (pstep_key out v rest k), prun_app (prun_calls hx ht ho (keySub_slot _)),
      keySub_put, prun_members hl hts hos, tails_cons]
    simp
theorem prun_objects : ∀ {l} {ts : List (List UInt8)} {os : List Op} {out : List UInt8} {v : Bool}
    {rest : List Sub}, FitO l → JsonO l ts → CallsO l os →
    prun (arrSub out v :: rest) os = some (arrSub (out ++ tails v ts) (v || !ts.isEmpty) :: rest)
  | _, _, _, out, v, rest, .nil, .nil, .nil => by simp [prun, tails_nil]
  | _, _, _, out, v, rest, .cons m l hm hl, .cons _ _ _ ts (.obj _ us hu) hts,
      .cons _ _ _ os (.obj _ ps hp) hos => by
    rw [prun_app (prun_map (rest := rest) (s := arrSub out v) rfl (slot_map (arrSub_slot _ _))
      fun out => ⟨_, prun_members (v := false) hm hu hp⟩),
      arrSub_put, prun_objects hl hts hos, tails_cons]
    simp
end

/-! ### The text denotes the value -/

theorem ws_nil : Ws [] := by intro c hc; cases hc

theorem sep_commas {α : Type} {P : List UInt8 → α → Prop} {f : α → List UInt8} :
    ∀ {l : List α}, l ≠ [] → (∀ a ∈ l, P (f a) a) → Sep P (commas (l.map f)) l
  | [], h, _ => absurd rfl h
  | [a], _, h => by
    have := Sep.one (P := P) [] (f a) [] a ws_nil (h a (by simp)) ws_nil
    simpa [commas] using this
  | a :: c :: l, _, h => by
    have ih := sep_commas (l := c :: l) (by simp) (fun x hx => h x (by simp [hx]))
    have := Sep.cons (P := P) [] (f a) [] a _ _ ws_nil (h a (by simp)) ws_nil ih
    simpa [commas] using this

theorem num_i64 {i : Int} (h : Num i) : I64 i := by
  obtain ⟨h1, h2⟩ := h
  constructor <;> omega

mutual
theorem json_txt : ∀ {v : Val} {t : List UInt8}, Fit v → Json v t → Txt t v
  | _, _, .nil, .nil => .null
  | _, _, .bool x, .bool _ => .bool x
  | _, _, .int i h, .int _ => .int i (num_i64 h)
  | _, _, .str s h, .str _ => .str s h
  | _, _, .bools l h, .bools _ => .bools _ _ (sep_commas h fun _ _ => rfl)
  | _, _, .ints l h h2, .ints _ => .ints _ _ (sep_commas h fun i hi => ⟨rfl, num_i64 (h2 i hi)⟩)
  | _, _, .strs l h h2, .strs _ => .strs _ _ (sep_commas h fun s hs => ⟨rfl, h2 s hs⟩)
  | _, _, .obj l h, .obj _ ts ht => .obj _ _ (json_members h ht)
  | _, _, .objs l h0 h, .objs _ ts ht => .objs _ _ (json_objects h0 h ht)
theorem json_members : ∀ {l} {ts : List (List UInt8)}, FitM l → JsonM l ts → Members (commas ts) l
  | _, _, .nil, .nil => .none [] ws_nil
  | _, _, .cons k v l hk hv hl, .cons _ _ t _ ts ht hts => by
    have h1 := json_txt hv ht
    have h2 := json_members hl hts
    apply Members.some
    cases ts with
    | nil =>
      cases hts
      have := Members1.one [] k [] [] t v [] ws_nil hk ws_nil ws_nil h1 ws_nil
      simpa [commas] using this
    | cons u ts =>
      cases h2 with
      | none _ hw =>
        cases hts
      | some _ _ h2 =>
        have := Members1.cons [] k [] [] t v [] _ _ ws_nil hk ws_nil ws_nil h1 ws_nil h2
        simpa [commas] using this
theorem json_objects : ∀ {l} {ts : List (List UInt8)}, l ≠ [] → FitO l → JsonO l ts →
    Objects (commas ts) l
  | _, _, h0, .nil, _ => absurd rfl h0
  | _, _, _, .cons m l hm hl, .cons _ _ _ ts (.obj _ us hu) hts => by
    have h1 := json_members hm hu
    cases ts with
    | nil =>
      cases hts
      have := Objects.one [] _ _ [] ws_nil h1 ws_nil
      simpa [commas] using this
    | cons u ts =>
      have h2 := json_objects (by intro h; subst h; cases hts) hl hts
      have := Objects.cons [] _ _ [] _ _ ws_nil h1 ws_nil h2
      simpa [commas] using this
end

/-! ### Every fitting value has a text and calls -/

mutual
theorem fit_total : ∀ {v : Val}, Fit v → ∃ t os, Json v t ∧ Calls v os
  | _, .nil => ⟨_, _, .nil, .nil⟩
  | _, .bool x => ⟨_, _, .bool x, .bool x⟩
  | _, .int i _ => ⟨_, _, .int i, .int i⟩
  | _, .str s _ => ⟨_, _, .str s, .str s⟩
  | _, .bools l _ => ⟨_, _, .bools l, .bools l⟩
  | _, .ints l _ _ => ⟨_, _, .ints l, .ints l⟩
  | _, .strs l _ _ => ⟨_, _, .strs l, .strs l⟩
  | _, .obj l h => by
    obtain ⟨ts, os, h1, h2⟩ := fitM_total h
    exact ⟨_, _, .obj l ts h1, .obj l os h2⟩
  | _, .objs l _ h => by
    obtain ⟨ts, os, h1, h2⟩ := fitO_total h
    exact ⟨_, _, .objs l ts h1, .objs l os h2⟩
theorem fitM_total : ∀ {l}, FitM l → ∃ ts os, JsonM l ts ∧ CallsM l os
  | _, .nil => ⟨_, _, .nil, .nil⟩
  | _, .cons k v l _ hv hl => by
    obtain ⟨t, o, h1, h2⟩ := fit_total hv
    obtain ⟨ts, os, h3, h4⟩ := fitM_total hl
    exact ⟨_, _, .cons k v t l ts h1 h3, .cons k v o l os h2 h4⟩
theorem fitO_total : ∀ {l}, FitO l → ∃ ts os, JsonO l ts ∧ CallsO l os
  | _, .nil => ⟨_, _, .nil, .nil⟩
  | _, .cons m l hm hl => by
    obtain ⟨ts, os, h1, h2⟩ := fitM_total hm
    obtain ⟨us, ps, h3, h4⟩ := fitO_total hl
    exact ⟨_, _, .cons m _ l us (.obj m ts h1) h3, .cons m _ l ps (.obj m os h2) h4⟩
end

end Verif.Json
