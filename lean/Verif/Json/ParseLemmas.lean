import Verif.Json.Lemmas

/-! Lemmas about the decoder: reading a text gives the value it denotes. -/

namespace Verif.Json

open Verif.Rep (b)

theorem feed_app {σ : Type} {cb : σ → Kind → List UInt8 → Out (Bool × σ)} {d d' : σ}
    {k : Kind} {s : List UInt8} {r : List (Kind × List UInt8)} (h : cb d k s = .ok (true, d')) :
    feed cb d ((k, s) :: r) = feed cb d' r := by
  rw [feed, h]

/-! ### Arrays of one type -/

theorem feed_scanType {α : Type} {f : α → Kind × List UInt8} {T : Elem} {l : List α}
    (hf : ∀ a ∈ l, elemType (f a).1 (f a).2 = some T) (n : Nat) :
    feed scanType (some T, n) (l.map f) = .ok (true, some T, n + l.length) := by
  induction l generalizing n with
  | nil => rfl
  | cons a l ih =>
    have h1 : scanType (some T, n) (f a).1 (f a).2 = .ok (true, some T, n + 1) := by
      rw [scanType, hf a (by simp)]
      simp
    rw [List.map_cons, feed_app h1, ih (fun x hx => hf x (by simp [hx]))]
    simp only [List.length_cons]
    rw [show n + 1 + l.length = n + (l.length + 1) by omega]

theorem feed_scanType0 {α : Type} {f : α → Kind × List UInt8} {T : Elem} {l : List α} (hl : l ≠ [])
    (hf : ∀ a ∈ l, elemType (f a).1 (f a).2 = some T) :
    feed scanType (none, 0) (l.map f) = .ok (true, some T, l.length) := by
  cases l with
  | nil => exact absurd rfl hl
  | cons a l =>
    have h1 : scanType (none, 0) (f a).1 (f a).2 = .ok (true, some T, 1) := by
      rw [scanType, hf a (by simp)]
    rw [List.map_cons, feed_app h1, feed_scanType (fun x hx => hf x (by simp [hx]))]
    simp only [List.length_cons]
    rw [show 1 + l.length = l.length + 1 by omega]

theorem feed_assign {α : Type} {f : α → Kind × List UInt8} {size : Nat}
    {cb : List α → Kind → List UInt8 → Out (Bool × List α)} {l : List α}
    (hf : ∀ a ∈ l, ∀ acc : List α, acc.length < size → cb acc (f a).1 (f a).2 = .ok (true, acc ++ [a])) :
    ∀ acc : List α, acc.length + l.length ≤ size → feed cb acc (l.map f) = .ok (true, acc ++ l) := by
  induction l with
  | nil => intro acc _; simp [feed]
  | cons a l ih =>
    intro acc h
    simp only [List.length_cons] at h
    rw [List.map_cons, feed_app (hf a (by simp) acc (by omega)),
      ih (fun x hx => hf x (by simp [hx])) _ (by simp; omega)]
    simp

theorem setRep_cur {l : List Node} {key : List UInt8} {x v : Val} {e e' : Bool} :
    setRep { nodes := l ++ [(some key, x)], cur := true, empty := e } v e' =
      some { nodes := l ++ [(some key, v)], cur := false, empty := e } := by
  simp [setRep, setLast]

theorem fill_text {α : Type} {f : α → Kind × List UInt8} {mk : List α → Val}
    {cb : Nat → List α → Kind → List UInt8 → Out (Bool × List α)} {l : List α} {t : List UInt8}
    (hs : scan {} t = (l.map f, true))
    (hf : ∀ a ∈ l, ∀ acc : List α, acc.length < l.length →
      cb l.length acc (f a).1 (f a).2 = .ok (true, acc ++ [a]))
    (pre : List Node) (key : List UInt8) (x : Val) (e : Bool) :
    fill mk (cb l.length) l.length { nodes := pre ++ [(some key, x)], cur := true, empty := e } t =
      .ok (true, { nodes := pre ++ [(some key, mk l)], cur := false, empty := e }) := by
  have h1 : jsmn (cb l.length) [] t = .ok (some l.length, l) := by
    rw [jsmn, hs]
    dsimp only
    rw [feed_assign hf [] (by simp)]
    simp
  rw [fill, h1]
  dsimp only
  rw [setRep_cur]
  simp

theorem scan_type {α : Type} {f : α → Kind × List UInt8} {T : Elem} {l : List α} {t : List UInt8}
    (hs : scan {} t = (l.map f, true)) (hl : l ≠ [])
    (hf : ∀ a ∈ l, elemType (f a).1 (f a).2 = some T) :
    jsmn scanType (none, 0) t = .ok (some l.length, some T, l.length) := by
  rw [jsmn, hs]
  dsimp only
  rw [feed_scanType0 hl hf]
  simp

theorem parseArr_bools {t : List UInt8} {l : List Bool} (h : Sep BoolT t l)
    (tok) (pre : List Node) (key : List UInt8) (x : Val) (e : Bool) :
    parseArr tok { nodes := pre ++ [(some key, x)], cur := true, empty := e } t =
      .ok (true, { nodes := pre ++ [(some key, .bools l)], cur := false, empty := e }) := by
  have hs := toks_sep (f := fun a => (Kind.prim, boolText a))
    (fun t a (e : t = boolText a) => by
      subst e; exact tok_prim (boolText_ne a) (bool_bytes a)) h
  rw [parseArr, scan_type hs (sep_ne h) (T := .bool) (fun a _ => by
    simp [elemType, isNull_bool, parseBool_text])]
  exact fill_text (cb := assignBool) hs (fun a _ acc hacc => by
    simp [assignBool, parseBool_text, hacc]) pre key x e

theorem parseArr_ints {t : List UInt8} {l : List Int} (h : Sep IntT t l)
    (tok) (pre : List Node) (key : List UInt8) (x : Val) (e : Bool) :
    parseArr tok { nodes := pre ++ [(some key, x)], cur := true, empty := e } t =
      .ok (true, { nodes := pre ++ [(some key, .ints l)], cur := false, empty := e }) := by
  have hs := toks_sep (f := fun a => (Kind.prim, intText a))
    (fun t a (e : IntT t a) => by
      obtain ⟨rfl, _⟩ := e; exact tok_prim (intText_ne a) (int_bytes a)) h
  have hr := sep_all (Q := I64) (fun t a (e : IntT t a) => e.2) h
  rw [parseArr, scan_type hs (sep_ne h) (T := .int) (fun a ha => by
    simp [elemType, isNull_int, parseBool_int, parseInt_text (hr a ha)])]
  exact fill_text (cb := assignInt) hs (fun a ha acc hacc => by
    simp [assignInt, parseInt_text (hr a ha), hacc]) pre key x e

theorem parseArr_strs {t : List UInt8} {l : List (List UInt8)} (h : Sep StrT t l)
    (tok) (pre : List Node) (key : List UInt8) (x : Val) (e : Bool) :
    parseArr tok { nodes := pre ++ [(some key, x)], cur := true, empty := e } t =
      .ok (true, { nodes := pre ++ [(some key, .strs l)], cur := false, empty := e }) := by
  have hs := toks_sep (f := fun a => (Kind.str, a))
    (fun t a (e : StrT t a) => e.1 ▸ tok_str e.2.1) h
  have hr := sep_all (Q := fun s => s.length ≤ 127) (fun t a (e : StrT t a) => e.2.2) h
  rw [parseArr, scan_type hs (sep_ne h) (T := .str) (fun a ha => rfl)]
  exact fill_text (cb := assignStr) hs (fun a ha acc hacc => by
    have : a.take (itemMax - 1) = a := List.take_of_length_le (hr a ha)
    simp [assignStr, hacc, this]) pre key x e

/-! ### Objects -/

/-- Reading a text that denotes a value. -/
def Reads (t : List UInt8) (v : Val) : Prop :=
  ∃ k s, Tok t (k, s) ∧ ∀ n pre key x e, t.length ≤ n →
    parseTok n { nodes := pre ++ [(some key, x)], cur := true, empty := e } k s =
      .ok (true, { nodes := pre ++ [(some key, v)], cur := false, empty := e })

/-- Reading the members of an object. -/
def ReadsM (t : List UInt8) (l : List Node) : Prop :=
  ∃ toks, scan {} t = (toks, true) ∧ ∀ n pre, t.length ≤ n →
    feed (parseTok n) { nodes := pre } toks = .ok (true, { nodes := pre ++ l })

/-- Reading the elements of an array of objects. -/
def ReadsO (t : List UInt8) (l : List Node) : Prop :=
  ∃ toks : List (List UInt8), toks ≠ [] ∧ scan {} t = (toks.map fun s => (Kind.obj, s), true) ∧
    ∀ n pre, t.length ≤ n →
    feed (assignObj (parseTok n)) { nodes := pre } (toks.map fun s => (Kind.obj, s)) =
      .ok (true, { nodes := pre ++ l })

theorem reads_prim {s : List UInt8} {v : Val} (hs : s ≠ []) (h : ∀ c ∈ s, PrimByte c ∧ PrimStart c)
    (hv : primVal s = some v) : Reads s v := by
  refine ⟨.prim, s, tok_prim hs h, ?_⟩
  intro n pre key x e hn
  cases n with
  | zero => simp at hn; exact absurd hn hs
  | succ n => simp [parseTok, parsePrim, hv, setLast]

theorem reads_str {s : List UInt8} (h : Plain s) : Reads (quote s) (.str s) := by
  refine ⟨.str, s, tok_str h, ?_⟩
  intro n pre key x e hn
  cases n with
  | zero => simp [quote] at hn
  | succ n =>
    rw [parseTok, parseString]
    simp only [if_true]
    rw [setRep_cur]

theorem reads_arr {t : List UInt8} {v : Val} (h : Skips t)
    (hp : ∀ n pre key x e, t.length ≤ n →
      parseArr (parseTok n) { nodes := pre ++ [(some key, x)], cur := true, empty := e } t =
        .ok (true, { nodes := pre ++ [(some key, v)], cur := false, empty := e })) :
    Reads (91 :: t ++ [93]) v := by
  refine ⟨.arr, t, tok_cont (.inr ⟨rfl, rfl⟩) h, ?_⟩
  intro n pre key x e hn
  cases n with
  | zero => simp at hn
  | succ n =>
    rw [parseTok]
    exact hp n pre key x e (by simp at hn; omega)

/-- The members of an object never have the unknown type, and have names. -/
def Good (l : List Node) : Prop := ∀ x ∈ l, x.1 ≠ none ∧ x.2 ≠ .unknown

theorem txt_known {t : List UInt8} {v : Val} (h : Txt t v) : v ≠ .unknown := by
  cases h <;> simp

theorem members1_good : ∀ {t : List UInt8} {l}, Members1 t l → Good l
  | _, _, .one w k w1 w2 t v w3 h h1 h2 h3 h4 h5 => by
    intro x hx; simp at hx; subst hx; exact ⟨by simp, txt_known h4⟩
  | _, _, .cons w k w1 w2 t v w3 rest l h h1 h2 h3 h4 h5 h6 => by
    intro x hx
    rcases List.mem_cons.1 hx with rfl | hx
    · exact ⟨by simp, txt_known h4⟩
    · exact members1_good h6 x hx

theorem members_good {t : List UInt8} {l} (h : Members t l) : Good l := by
  cases h with
  | none => simp [Good]
  | some _ _ h => exact members1_good h

theorem parseObj_good {tok} {d d' : Data} {t : List UInt8} {l : List Node} {c : Nat} (hg : Good l)
    (h : jsmn tok {} t = .ok (some c, { nodes := l })) (hs : setRep d (.obj l) false = some d') :
    parseObj tok d t = .ok (true, d') := by
  rw [parseObj, h]
  dsimp only
  rw [hs]
  split
  · exact absurd rfl (hg (none, _) List.mem_cons_self).1
  · exact absurd rfl (hg (some _, .unknown) List.mem_cons_self).2
  · rfl

theorem jsmn_members {t : List UInt8} {l : List Node} (h : ReadsM t l) {n : Nat} (hn : t.length ≤ n) :
    ∃ c, jsmn (parseTok n) {} t = .ok (some c, { nodes := l }) := by
  obtain ⟨toks, h1, h2⟩ := h
  refine ⟨toks.length, ?_⟩
  rw [jsmn, h1]
  dsimp only
  rw [h2 n [] hn]
  simp

theorem setRep_new {pre : List Node} {v : Val} :
    setRep { nodes := pre } v false = some { nodes := pre ++ [(none, v)] } := by
  simp [setRep]

theorem reads_obj {t : List UInt8} {l : List Node} (hs : Skips t) (hg : Good l) (h : ReadsM t l) :
    Reads (123 :: t ++ [125]) (.obj l) := by
  refine ⟨.obj, t, tok_cont (.inl ⟨rfl, rfl⟩) hs, ?_⟩
  intro n pre key x e hn
  cases n with
  | zero => simp at hn
  | succ n =>
    rw [parseTok]
    obtain ⟨c, hc⟩ := jsmn_members h (n := n) (by simp at hn; omega)
    exact parseObj_good hg hc setRep_cur

theorem feed_scanObj (toks : List (List UInt8)) (h : toks ≠ []) {t : List UInt8}
    (hs : scan {} t = (toks.map fun s => (Kind.obj, s), true)) :
    jsmn scanType (none, 0) t = .ok (some toks.length, some .obj, toks.length) :=
  scan_type hs h (fun _ _ => rfl)

theorem reads_objs {t : List UInt8} {l : List Node} (hs : Skips t) (h : ReadsO t l) :
    Reads (91 :: t ++ [93]) (.objs l) := by
  obtain ⟨toks, h1, h2, h3⟩ := h
  refine reads_arr hs ?_
  intro n pre key x e hn
  rw [parseArr, feed_scanObj toks h1 h2]
  dsimp only
  have h4 : jsmn (assignObj (parseTok n)) {} t = .ok (some toks.length, { nodes := l }) := by
    rw [jsmn, h2]
    dsimp only
    rw [h3 n [] hn]
    simp
  rw [fillObj, h4]
  obtain ⟨m, hm⟩ : ∃ m, toks.length = m + 1 := ⟨toks.length - 1, by
    have := List.length_pos_iff.2 h1; omega⟩
  rw [hm]
  dsimp only
  rw [setRep_cur]

theorem reads_empty {w : List UInt8} (h : Ws w) : Reads (91 :: w ++ [93]) .nil := by
  refine reads_arr (skips_ws h) ?_
  intro n pre key x e _
  have hs : scan {} w = ([], true) := by
    have := scan_ws {} (w := w) [] (ws_skip h)
    rw [List.append_nil] at this
    rw [this]; rfl
  have : jsmn scanType (none, 0) w = .ok (some 0, none, 0) := by
    rw [jsmn, hs]; rfl
  rw [parseArr, this]
  dsimp only
  rw [setRep_cur]

theorem member_feed {n : Nat} {k : List UInt8} {pre : List Node} {v : Val} {t : List UInt8}
    {kd : Kind} {s : List UInt8} {r : List (Kind × List UInt8)} (hn : t.length < n)
    (h : ∀ n pre key x e, t.length ≤ n →
      parseTok n { nodes := pre ++ [(some key, x)], cur := true, empty := e } kd s =
        .ok (true, { nodes := pre ++ [(some key, v)], cur := false, empty := e })) :
    feed (parseTok n) { nodes := pre } ((.str, k) :: (kd, s) :: r) =
      feed (parseTok n) { nodes := pre ++ [(some k, v)] } r := by
  cases n with
  | zero => omega
  | succ n =>
    have h1 : parseTok (n + 1) { nodes := pre } .str k =
        .ok (true, { nodes := pre ++ [(some k, .unknown)], cur := true }) := by
      simp [parseTok, parseString]
    rw [feed_app h1, feed_app (h (n + 1) pre k .unknown false (by omega))]

mutual
theorem reads_txt : ∀ {t : List UInt8} {v : Val}, Txt t v → Reads t v
  | _, _, .null => reads_prim (by simp [b]) null_bytes rfl
  | _, _, .bool x => reads_prim (boolText_ne x) (bool_bytes x) (primVal_bool x)
  | _, _, .int i h => reads_prim (intText_ne i) (int_bytes i) (primVal_int h)
  | _, _, .str _ h => reads_str h
  | _, _, .empty _ h => reads_empty h
  | _, _, .bools _ _ h => reads_arr
      (skips_sep (fun t a (e : t = boolText a) => e ▸ skips_prim (boolText_ne a) (bool_bytes a)) h)
      (fun _ pre key x e _ => parseArr_bools h _ pre key x e)
  | _, _, .ints _ _ h => reads_arr
      (skips_sep (fun t a (e : IntT t a) => e.1 ▸ skips_prim (intText_ne a) (int_bytes a)) h)
      (fun _ pre key x e _ => parseArr_ints h _ pre key x e)
  | _, _, .strs _ _ h => reads_arr
      (skips_sep (fun t a (e : StrT t a) => e.1 ▸ skips_str e.2.1) h)
      (fun _ pre key x e _ => parseArr_strs h _ pre key x e)
  | _, _, .obj _ _ h => reads_obj (skips_members h) (members_good h) (reads_members h)
  | _, _, .objs _ _ h => reads_objs (skips_objects h) (reads_objects h)
theorem reads_members : ∀ {t : List UInt8} {l}, Members t l → ReadsM t l
  | w, _, .none _ h => by
    have := scan_ws {} (w := w) [] (ws_skip h)
    rw [List.append_nil] at this
    exact ⟨[], by rw [this]; rfl, fun n pre _ => by simp [feed]⟩
  | _, _, .some _ _ h => reads_members1 h
theorem reads_members1 : ∀ {t : List UInt8} {l}, Members1 t l → ReadsM t l
  | _, _, .one w k w1 w2 t v w3 h h1 h2 h3 h4 h5 => by
    obtain ⟨kd, s, e1, e2⟩ := reads_txt h4
    have e3 := e1 w3 (by have := ends_ws h5 (r := []) trivial; simpa using this)
    have e4 := scan_ws {} (w := w3) [] (ws_skip h5)
    rw [List.append_nil] at e4
    refine ⟨[(.str, k), (kd, s)], ?_, ?_⟩
    · simp only [List.append_assoc, List.cons_append]
      rw [scan_ws _ _ (ws_skip h), scan_str _ _ h1, scan_ws _ _ (ws_skip h2), scan_skip _ _ rfl,
        scan_ws _ _ (ws_skip h3), e3, e4]
      rfl
    · intro n pre hn
      rw [member_feed (t := t) (by simp at hn; omega) e2]
      rfl
  | _, _, .cons w k w1 w2 t v w3 rest l h h1 h2 h3 h4 h5 h6 => by
    obtain ⟨kd, s, e1, e2⟩ := reads_txt h4
    obtain ⟨toks, e4, e5⟩ := reads_members1 h6
    have e3 := e1 (w3 ++ 44 :: rest) (ends_ws h5 (show Ends (44 :: _) from rfl))
    refine ⟨(.str, k) :: (kd, s) :: toks, ?_, ?_⟩
    · simp only [List.append_assoc, List.cons_append]
      rw [scan_ws _ _ (ws_skip h), scan_str _ _ h1, scan_ws _ _ (ws_skip h2), scan_skip _ _ rfl,
        scan_ws _ _ (ws_skip h3), e3, scan_ws _ _ (ws_skip h5), scan_skip _ _ rfl, e4]
      rfl
    · intro n pre hn
      rw [member_feed (t := t) (by simp at hn; omega) e2, e5 n _ (by simp at hn; omega)]
      simp
theorem reads_objects : ∀ {t : List UInt8} {l}, Objects t l → ReadsO t l
  | _, _, .one w t l w' h1 h2 h3 => by
    have e1 := tok_cont (.inl ⟨rfl, rfl⟩) (skips_members h2) w'
      (by have := ends_ws h3 (r := []) trivial; simpa using this)
    have e4 := scan_ws {} (w := w') [] (ws_skip h3)
    rw [List.append_nil] at e4
    have e2 := reads_members h2
    refine ⟨[t], by simp, ?_, ?_⟩
    · simp only [List.append_assoc, List.cons_append, List.nil_append] at e1 ⊢
      rw [scan_ws _ _ (ws_skip h1), e1, e4]
      rfl
    · intro n pre hn
      obtain ⟨c, hc⟩ := jsmn_members e2 (n := n) (by simp at hn; omega)
      have : assignObj (parseTok n) { nodes := pre } .obj t =
          .ok (true, { nodes := pre ++ [(none, .obj l)] }) := by
        rw [assignObj]
        simp only [ne_eq, not_true_eq_false, if_false]
        exact parseObj_good (members_good h2) hc setRep_new
      rw [List.map_cons, feed_app this]
      rfl
  | _, _, .cons w t l w' rest ls h1 h2 h3 h4 => by
    have e1 := tok_cont (.inl ⟨rfl, rfl⟩) (skips_members h2) (w' ++ 44 :: rest)
      (ends_ws h3 (show Ends (44 :: _) from rfl))
    have e2 := reads_members h2
    obtain ⟨toks, e4, e5, e6⟩ := reads_objects h4
    refine ⟨t :: toks, by simp, ?_, ?_⟩
    · simp only [List.append_assoc, List.cons_append, List.nil_append] at e1 ⊢
      rw [scan_ws _ _ (ws_skip h1), e1, scan_ws _ _ (ws_skip h3), scan_skip _ _ rfl, e5]
      rfl
    · intro n pre hn
      obtain ⟨c, hc⟩ := jsmn_members e2 (n := n) (by simp at hn; omega)
      have : assignObj (parseTok n) { nodes := pre } .obj t =
          .ok (true, { nodes := pre ++ [(none, .obj l)] }) := by
        rw [assignObj]
        simp only [ne_eq, not_true_eq_false, if_false]
        exact parseObj_good (members_good h2) hc setRep_new
      rw [List.map_cons, feed_app this, e6 n _ (by simp at hn; omega)]
      simp
end

end Verif.Json
