import Verif.Json.SafeLemmas
import Verif.Json.TextLemmas

/-! Properties of the JSON decoder and encoder. -/

namespace Verif.Json

open Verif.Rep (b)

/-! ### C79: decoding gives the value a text denotes -/

/-- C79.  The text of a JSON object, with any white space inside and around it, is
decoded to exactly its members: names, values, order. -/
theorem decode_object {w t w' : List UInt8} {l : List Node} (hw : Ws w) (ht : Members t l)
    (hw' : Ws w') : decode (w ++ 123 :: t ++ 125 :: w') = .ok (.rep l) := by
  obtain ⟨toks, h1, h2⟩ := reads_members ht
  have e0 : w ++ 123 :: t ++ 125 :: w' = w ++ ((123 :: t ++ [125]) ++ w') := by simp
  have e4 := scan_ws {} (w := w') [] (ws_skip hw')
  rw [List.append_nil] at e4
  have e1 : scan {} (w ++ ((123 :: t ++ [125]) ++ w')) = ([(.obj, t)], true) := by
    rw [scan_ws _ _ (ws_skip hw), tok_cont (.inl ⟨rfl, rfl⟩) (skips_members ht) w'
      (by have := ends_ws hw' (r := []) trivial; simpa using this), e4]
    rfl
  rw [e0, decode, jsmn, e1]
  obtain ⟨n, hn⟩ : ∃ n, (w ++ ((123 :: t ++ [125]) ++ w')).length = n ∧ t.length ≤ n :=
    ⟨_, rfl, by simp; omega⟩
  rw [hn.1]
  obtain ⟨c, hc⟩ := jsmn_members ⟨toks, h1, h2⟩ hn.2
  have h3 : parseTok (n + 1) {} .obj t = .ok (true, { nodes := [(none, .obj l)] }) := by
    rw [parseTok]
    exact parseObj_good (members_good ht) hc (setRep_new (pre := []))
  dsimp only
  rw [feed_app h3]
  rfl

/-- C79.  The text of a nonempty array of objects is decoded to its elements in order. -/
theorem decode_objects {w t w' : List UInt8} {l : List Node} (hw : Ws w) (ht : Objects t l)
    (hw' : Ws w') : decode (w ++ 91 :: t ++ 93 :: w') = .ok (.rep l) := by
  obtain ⟨toks, h0, h1, h2⟩ := reads_objects ht
  have e0 : w ++ 91 :: t ++ 93 :: w' = w ++ ((91 :: t ++ [93]) ++ w') := by simp
  have e4 := scan_ws {} (w := w') [] (ws_skip hw')
  rw [List.append_nil] at e4
  have e1 : scan {} (w ++ ((91 :: t ++ [93]) ++ w')) = ([(.arr, t)], true) := by
    rw [scan_ws _ _ (ws_skip hw), tok_cont (.inr ⟨rfl, rfl⟩) (skips_objects ht) w'
      (by have := ends_ws hw' (r := []) trivial; simpa using this), e4]
    rfl
  rw [e0, decode, jsmn, e1]
  obtain ⟨n, hn⟩ : ∃ n, (w ++ ((91 :: t ++ [93]) ++ w')).length = n ∧ t.length ≤ n :=
    ⟨_, rfl, by simp; omega⟩
  rw [hn.1]
  have h4 : jsmn (assignObj (parseTok n)) {} t = .ok (some toks.length, { nodes := l }) := by
    rw [jsmn, h1]
    dsimp only
    rw [h2 n [] hn.2]
    simp
  have h3 : parseTok (n + 1) {} .arr t = .ok (true, { nodes := [(none, .objs l)] }) := by
    rw [parseTok, parseArr, feed_scanObj toks h0 h1]
    dsimp only
    rw [fillObj, h4]
    obtain ⟨m, hm⟩ : ∃ m, toks.length = m + 1 := ⟨toks.length - 1, by
      have := List.length_pos_iff.2 h0; omega⟩
    rw [hm]
    rfl
  dsimp only
  rw [feed_app h3]
  rfl

/-- C79.  The empty array is reported as such. -/
theorem decode_empty {w t w' : List UInt8} (hw : Ws w) (ht : Ws t) (hw' : Ws w') :
    decode (w ++ 91 :: t ++ 93 :: w') = .ok .emptyArray := by
  have e0 : w ++ 91 :: t ++ 93 :: w' = w ++ ((91 :: t ++ [93]) ++ w') := by simp
  have e4 := scan_ws {} (w := w') [] (ws_skip hw')
  rw [List.append_nil] at e4
  have e1 : scan {} (w ++ ((91 :: t ++ [93]) ++ w')) = ([(.arr, t)], true) := by
    rw [scan_ws _ _ (ws_skip hw), tok_cont (.inr ⟨rfl, rfl⟩) (skips_ws ht) w'
      (by have := ends_ws hw' (r := []) trivial; simpa using this), e4]
    rfl
  rw [e0, decode, jsmn, e1]
  have hs : scan {} t = ([], true) := by
    have := scan_ws {} (w := t) [] (ws_skip ht)
    rw [List.append_nil] at this
    rw [this]; rfl
  have h2 : jsmn scanType (none, 0) t = .ok (some 0, none, 0) := by
    rw [jsmn, hs]; rfl
  have h3 : ∀ n, parseTok (n + 1) {} .arr t =
      .ok (true, { nodes := [(none, .nil)], cur := false, empty := true }) := by
    intro n
    rw [parseTok, parseArr, h2]
    rfl
  dsimp only
  rw [feed_app (h3 _)]
  rfl

/-- A text that meets the hypotheses of `decode_object`, with white space, nesting
and all kinds of values. -/
example : decode (b " {\"a\" : -12,\"l\":[ {\"x\":null}, {}],\n\"s\":[\"p\",\"\"],\"t\":true}") =
    .ok (.rep [(some (b "a"), .int (-12)),
      (some (b "l"), .objs [(none, .obj [(some (b "x"), .nil)]), (none, .obj [])]),
      (some (b "s"), .strs [b "p", []]), (some (b "t"), .bool true)]) := by rfl

example : Members (b " \"a\" :1,\"b\":[true]") [(some (b "a"), .int 1), (some (b "b"), .bools [true])] := by
  refine .some _ _ (.cons (b " ") (b "a") (b " ") [] (b "1") (.int 1) [] (b "\"b\":[true]") _ ?_ ?_ ?_ ?_
    (.int 1 (by unfold I64; decide)) ?_
    (.one [] (b "b") [] [] (b "[true]") (.bools [true]) [] ?_ ?_ ?_ ?_
      (.bools (b "true") [true] (.one [] (b "true") [] true ?_ rfl ?_)) ?_))
  all_goals (first | unfold Ws | unfold Plain)
  all_goals decide

/-- Escape sequences are not decoded: the JSON text of an object whose member is a
line feed (one character, written as the escape sequence backslash, n) is decoded
to the two characters backslash and n (jsmn_parse_string util/jsmn/jsmn.c:183-185
and json_parse_string_value api/oc_rep_decode_json.c:55 copy the text between the
quotes), so C79 is restricted to strings that need no escape sequence. -/
theorem escape_false :
    decode (b "{\"a\":\"\\n\"}") = .ok (.rep [(some (b "a"), .str [92, 110])]) := by rfl

set_option maxRecDepth 8000 in
/-- Items of string arrays are cut after 127 bytes without an error
(json_assign_array_string_values api/oc_rep_decode_json.c:368-372). -/
theorem long_item_false :
    decode (b "{\"a\":[\"" ++ List.replicate 128 120 ++ b "\"]}") =
      .ok (.rep [(some (b "a"), .strs [List.replicate 127 120])]) := by rfl

/-- Numbers with a fraction are read as the integer in front of the point, and any
characters after the digits are ignored (json_parse_int
api/oc_rep_decode_json.c:149-154 does not look where `strtoll` stopped). -/
theorem fraction_false :
    decode (b "{\"a\":1.9,\"b\":12kg}") =
      .ok (.rep [(some (b "a"), .int 1), (some (b "b"), .int 12)]) := by rfl

/-! ### C80: any bytes can be decoded safely; cut texts are refused -/

/-- C80 (partial).  Decoding is free of undefined behaviour for every text whose
first byte, apart from white space, colons and commas, is not an opening bracket:
all reads are inside the text, the recursion ends, the second pass over an array
stores exactly the elements the first one counted.  Missing: texts that start with
a bracket, see `null_root_ub`. -/
theorem decode_safe_partial (s : List UInt8) (h : (s.dropWhile isSkip).head? ≠ some 91) :
    decode s ≠ .ub := by
  have h1 := jsmn_safe (d := ({} : Data)) (safe_feed (parseTok_safe (s.length + 1)) (s := s) (by omega))
  rw [decode]
  split
  · next e => exact absurd e h1
  · simp
  · simp
  · next c d e =>
    unfold finish
    split
    · simp
    · split
      · next hn =>
        exfalso
        rw [jsmn] at e
        split at e
        · cases e
        · cases e
        · next d' e2 =>
          simp only [Out.ok.injEq, Prod.mk.injEq] at e
          have hd : d' = d := e.2
          subst hd
          have hlen : (scan {} s).1 ≠ [] := by
            intro h0
            have := e.1
            rw [h0] at this
            split at this <;> simp at this
          match ht : (scan {} s).1 with
          | [] => exact hlen ht
          | (k, x) :: l =>
            have hk : k ≠ .arr := fun hk => h (first_kind s (k, x) l ht hk)
            rw [ht, feed] at e2
            split at e2
            · cases e2
            · cases e2
            · next d1 e3 =>
              exact feed_ne e2 (parseTok_ne e3 (.inr ⟨hk, rfl⟩)) hn
      all_goals simp

/-- For every text at all, the only undefined behaviour is the use of the missing
root node after the tokens have been read: the parsing of the tokens itself is
always defined. -/
theorem tokens_safe (s : List UInt8) : jsmn (parseTok (s.length + 1)) {} s ≠ .ub :=
  jsmn_safe (safe_feed (parseTok_safe (s.length + 1)) (s := s) (by omega))

/-- An array of objects whose parsing fails is reported as success:
json_parse_array_object returns the (nonzero) error code as a `bool`
(api/oc_rep_decode_json.c:432-438).  At the root no node exists then, and
oc_rep_parse_json dereferences the NULL pointer `data.root.rep` (line 547).  Five
bytes in a request with the JSON content format suffice. -/
theorem null_root_ub : decode (b "[{1}]") = .ub := by rfl

/-- Inside an object the same error leaves a member of the undefined type 255 in the
decoded representation; only the first member of an object is checked
(api/oc_rep_decode_json.c:210-217). -/
theorem unknown_member_false :
    decode (b "{\"a\":1,\"b\":[{1}]}") = .ok (.rep [(some (b "a"), .int 1), (some (b "b"), .unknown)]) ∧
    decode (b "{\"a\":1,\"b\"}") = .ok (.rep [(some (b "a"), .int 1), (some (b "b"), .unknown)]) :=
  ⟨by rfl, by rfl⟩

/-- Texts to which `decode_safe_partial` applies: malformed ones included. -/
example : ((b " ,{\"a\":[}").dropWhile isSkip).head? ≠ some 91 ∧ decode (b " ,{\"a\":[}") = .ok .error :=
  ⟨by decide, by rfl⟩

/-- C80.  A text that is cut anywhere before the last brace of an object is refused:
no prefix of an object text is mistaken for a complete one. -/
theorem decode_cut {w t q r : List UInt8} {l : List Node} (hw : Ws w) (ht : Members t l)
    (hq : 123 :: t ++ [125] = q ++ r) (hr : r ≠ []) : decode (w ++ q) = .ok .error := by
  have key : ∃ a, scan {} (w ++ q) = ([], a) := by
    rw [scan_ws _ _ (ws_skip hw)]
    cases q with
    | nil => exact ⟨_, rfl⟩
    | cons c q =>
      simp only [List.cons_append, List.cons.injEq] at hq
      obtain ⟨rfl, hq⟩ := hq
      rw [scan_open _ _ (.inl rfl)]
      have hfull := tok_cont (.inl ⟨rfl, rfl⟩) (skips_members ht) [] trivial
      rw [List.append_nil, List.cons_append, hq, scan_open _ _ (.inl rfl)] at hfull
      have hlen := congrArg List.length hq
      simp only [List.length_append, List.length_singleton] at hlen
      rcases cut q.length q { cont := true, depth := 1, isObj := true, start := q }
        { cont := true, depth := 1, isObj := true, start := q ++ r } r (Nat.le_refl _)
        ⟨rfl, by simp⟩ rfl rfl rfl (by simp) with h | h | ⟨k, x, l', a, h, h2⟩
      · exact ⟨false, h⟩
      · have : scan { cont := true, depth := 1, isObj := true, start := q ++ r } (q ++ r) =
            prep [(.obj, t)] (scan {} []) := hfull
        rw [h] at this
        cases this
      · have : scan { cont := true, depth := 1, isObj := true, start := q ++ r } (q ++ r) =
            prep [(.obj, t)] (scan {} []) := hfull
        rw [h] at this
        simp only [prep, List.singleton_append, Prod.mk.injEq, List.cons.injEq] at this
        obtain ⟨⟨⟨_, rfl⟩, _⟩, _⟩ := this
        simp only [List.length_append] at h2
        have hr' := List.length_pos_iff.2 hr
        omega
  obtain ⟨a, ha⟩ := key
  rw [decode, jsmn, ha]
  cases a <;> rfl

example : decode (b "{\"a\":{\"b\":1}") = .ok .error ∧ decode (b "{\"a") = .ok .error :=
  ⟨by rfl, by rfl⟩

/-! ### C81: encoding -/

/-- C81.  Every sequence of calls of the encoder is free of undefined behaviour and
writes only inside the buffer, whatever its size and whether or not it can grow;
the buffer never exceeds the given maximum. -/
theorem encode_safe (cap max : Nat) (grow : Bool) (os : List Op) :
    ∃ e, run (init cap max grow) os = .ok e ∧
      (∀ s ∈ e.stack, s.out.length ≤ e.cap) ∧ e.cap ≤ Nat.max cap max ∧
      (grow = false → e.cap = cap) := by
  have h0 : SoundE (init cap max grow) := by
    intro s hs
    simp [init] at hs
    subst hs
    exact ⟨by simp, by simp⟩
  obtain ⟨e, h1, h2, h3, _⟩ := run_sound os h0
  have hl : limit (init cap max grow) = if grow then Nat.max cap max else cap := rfl
  rw [hl] at h3
  refine ⟨e, h1, fun s hs => (h2 s hs).1, ?_, ?_⟩
  · split at h3
    · exact h3
    · exact Nat.le_trans h3 (Nat.le_max_left _ _)
  · intro hg
    subst hg
    have hc : ∀ (os : List Op) (e e' : Enc), SoundE e → run e os = .ok e' → e.cap ≤ e'.cap := by
      intro os
      induction os with
      | nil => intro e e' _ h; cases h; exact Nat.le_refl _
      | cons op os ih =>
        intro e e' hs h
        obtain ⟨e1, g1, g2, g3, _⟩ := step_sound hs op
        rw [run, g1] at h
        exact Nat.le_trans g3.1 (ih e1 e' g2 h)
    have := hc os _ _ h0 h1
    simp [init] at this h3
    omega

/-- What the calls write: the calls for an object with fitting values produce
exactly its compact JSON text if that text fits into the buffer (which may grow to
its maximum, by however many reallocations), and an error otherwise. -/
theorem encode_object {l : List Node} {t : List UInt8} {os : List Op} (hf : Fit (.obj l))
    (ht : Json (.obj l) t) (ho : Calls (.obj l) os) (cap max : Nat) (grow : Bool) :
    ∃ e, run (init cap max grow) os = .ok e ∧
      payload e = if t.length ≤ (if grow then Nat.max cap max else cap) then some t else none := by
  cases hf with
  | obj _ hf =>
  cases ht with
  | obj _ ts ht =>
  cases ho with
  | obj _ os ho =>
  have hp : prun (init cap max grow).stack (.map :: os ++ [.close]) =
      some [put {} (123 :: commas ts ++ [125])] :=
    prun_map (s := {}) rfl rfl fun out => ⟨_, prun_members (v := false) hf ht ho⟩
  have h0 : SoundE (init cap max grow) := by
    intro s hs
    simp [init] at hs
    subst hs
    exact ⟨by simp, by simp⟩
  have h := run_sim h0 rfl (by intro s hs; simp [init] at hs; subst hs; rfl) hp
  have hl : limit (init cap max grow) = if grow then Nat.max cap max else cap := rfl
  have hto : topOut [put {} (123 :: commas ts ++ [125])] = 123 :: commas ts ++ [125] := rfl
  rw [hl, hto] at h
  by_cases hle : (123 :: commas ts ++ [125]).length ≤ (if grow then Nat.max cap max else cap)
  · rw [if_pos hle] at h ⊢
    obtain ⟨c, h1, _⟩ := h
    exact ⟨_, h1, rfl⟩
  · rw [if_neg hle] at h ⊢
    obtain ⟨e, h1, h2⟩ := h
    refine ⟨e, h1, ?_⟩
    rw [payload, h2]
    rfl

/-- The hypotheses of `encode_object` can be met by every fitting value. -/
theorem encodable {v : Val} (h : Fit v) : ∃ t os, Json v t ∧ Calls v os := fit_total h

/-- Once a call has failed, the encoding is refused whatever follows. -/
theorem encode_error_stays (cap max : Nat) (grow : Bool) (os ps : List Op) {e : Enc}
    (h : run (init cap max grow) os = .ok e) (he : payload e = none ∧ e.err = true) :
    ∃ e', run e ps = .ok e' ∧ payload e' = none := by
  have h0 : SoundE (init cap max grow) := by
    intro s hs
    simp [init] at hs
    subst hs
    exact ⟨by simp, by simp⟩
  obtain ⟨e1, h1, h2, _, _⟩ := run_sound os h0
  rw [h] at h1
  cases h1
  obtain ⟨e2, g1, _, _, g2⟩ := run_sound ps h2
  exact ⟨e2, g1, by rw [payload, g2 he.2]; rfl⟩

/-- An integer is accepted exactly between -(2^52)-1 and 2^53. -/
theorem int_range (s : Sub) (h : s.map = true → s.key = true) (i : Int) :
    refused s (.int i) = false ↔ Num i := by
  have hr : (!s.key && s.map) = false := by
    cases hm : s.map with
    | false => simp
    | true => simp [h hm]
  simp only [refused, hr, Bool.false_or, Bool.or_eq_false_iff, decide_eq_false_iff_not, Num]
  omega

/-- A value written without a key, a byte string: the encoding is refused. -/
example : (∃ e, run (init 100 100 false) [.map, .int 1, .close] = .ok e ∧ payload e = none) ∧
    (∃ e, run (init 100 100 false) [.map, .text (b "k"), .bytes [1], .close] = .ok e ∧
      payload e = none) := ⟨⟨_, rfl, rfl⟩, ⟨_, rfl, rfl⟩⟩

/-! ### C82: what is encoded is decoded again -/

/-- C82.  For every object with fitting values: if the encoder reports a payload,
the decoder reads from it exactly the members that were written. -/
theorem round_trip {l : List Node} {os : List Op} {p : List UInt8} {e : Enc} (hf : Fit (.obj l))
    (ho : Calls (.obj l) os) {cap max : Nat} {grow : Bool} (hr : run (init cap max grow) os = .ok e)
    (hp : payload e = some p) : decode p = .ok (.rep l) := by
  obtain ⟨t, _, ht, _⟩ := fit_total hf
  obtain ⟨e', h1, h2⟩ := encode_object hf ht ho cap max grow
  rw [hr] at h1
  cases h1
  rw [hp] at h2
  by_cases hle : t.length ≤ (if grow then Nat.max cap max else cap)
  · rw [if_pos hle] at h2
    cases h2
    cases ht with
    | obj _ ts ht =>
    cases hf with
    | obj _ hf =>
    have := decode_object (w := []) (w' := []) ws_nil (json_members hf ht) ws_nil
    simpa using this
  · rw [if_neg hle] at h2
    cases h2

/-- A value to which `round_trip` applies, written into a buffer that has to grow. -/
example : ∃ os e p, Fit (.obj [(some (b "n"), .ints [1, -2]), (some (b "s"), .str (b "x y"))]) ∧
    Calls (.obj [(some (b "n"), .ints [1, -2]), (some (b "s"), .str (b "x y"))]) os ∧
    run (init 4 1000 true) os = .ok e ∧ payload e = some p ∧ p = b "{\"n\":[1,-2],\"s\":\"x y\"}" := by
  refine ⟨_, _, _, .obj _ (.cons _ _ _ ?_ (.ints _ (by simp) ?_) (.cons _ _ _ ?_ (.str _ ?_) .nil)),
    .obj _ _ (.cons _ _ _ _ _ (.ints _) (.cons _ _ _ _ _ (.str _) .nil)), rfl, rfl, rfl⟩
  · unfold Plain; decide
  · unfold Num; decide
  · unfold Plain; decide
  · unfold Plain; decide

/-- Strings are written without escaping (rep_json_encode_text_string
api/oc_rep_encode_json.c:203-206): a string value with quotes in it adds members
to the object, here `admin`, and the decoder of the same library accepts the
result. -/
theorem injection_false :
    ∃ e p, run (init 100 100 false) [.map, .text (b "a"), .text (b "x\",\"admin\":true,\"c\":\"y"), .close] =
        .ok e ∧ payload e = some p ∧
      decode p = .ok (.rep [(some (b "a"), .str (b "x")), (some (b "admin"), .bool true),
        (some (b "c"), .str (b "y"))]) :=
  ⟨_, _, rfl, rfl, rfl⟩

/-- An empty array is read back as `nil`, so C82 is restricted to arrays with
elements. -/
theorem empty_array_false :
    ∃ e p, run (init 100 100 false) [.map, .text (b "a"), .arr, .close, .close] = .ok e ∧
      payload e = some p ∧ decode p = .ok (.rep [(some (b "a"), .nil)]) :=
  ⟨_, _, rfl, rfl, rfl⟩

/-- A floating point number is written with its fraction and read back as the
integer in front of it. -/
theorem double_false :
    ∃ e p, run (init 100 100 false) [.map, .text (b "a"), .dbl (b "-2.750000"), .close] = .ok e ∧
      payload e = some p ∧ decode p = .ok (.rep [(some (b "a"), .int (-2))]) :=
  ⟨_, _, rfl, rfl, rfl⟩

end Verif.Json
