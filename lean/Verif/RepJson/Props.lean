import Verif.RepJson.Lemmas

/-! C26: dumping a representation as JSON. -/

namespace Verif.RepJson

/-! ## Specification of the compact text -/

namespace Spec

/-- Texts joined by a separator. -/
def join (sep : List UInt8) : List (List UInt8) → List UInt8
  | [] => []
  | [x] => x
  | x :: r => x ++ sep ++ join sep r

/-- A JSON string (no escapes: see `unescaped_false`). -/
def str (s : List UInt8) : List UInt8 := b "\"" ++ s ++ b "\""

/-- A JSON array of texts. -/
def arr (l : List (List UInt8)) : List UInt8 := b "[" ++ join (b ",") l ++ b "]"

/-- The value of a property. -/
def leaf : Leaf → List UInt8
  | .nil => b "null"
  | .int i => b (toString i)
  | .dbl t => t
  | .bool v => b (if v then "true" else "false")
  | .bytes v => str (b64Text v)
  | .str s => str s
  | .ints l => arr (l.map fun i => b (toString i))
  | .dbls l => arr l
  | .bools l => arr (l.map fun v => b (if v then "true" else "false"))
  | .bytess l => arr (l.map fun v => str (b64Text v))
  | .strs l => arr (l.map str)
  | .other => []

/-- A member of an object. -/
def member (name value : List UInt8) : List UInt8 := str name ++ b ":" ++ value

mutual
/-- The members of an object. -/
def members : Rep → List (List UInt8)
  | .done => []
  | .leaf name v next => member name (leaf v) :: members next
  | .obj name child next => member name (b "{" ++ join (b ",") (members child) ++ b "}") :: members next
  | .objArr name items next => member name (arr (objects items)) :: members next
/-- The objects of an array. -/
def objects : Rep → List (List UInt8)
  | .obj _ child next => (b "{" ++ join (b ",") (members child) ++ b "}") :: objects next
  | _ => []
end

/-- The text of an object. -/
def json (r : Rep) : List UInt8 := b "{" ++ join (b ",") (members r) ++ b "}"

end Spec

/-! ## Well-formed representations -/

/-- Byte strings whose text is shorter than `INT_MAX`. -/
def LeafOk : Leaf → Prop
  | .bytes v => Base64.encodedSize v.length true ≤ intMax
  | .bytess l => ∀ v ∈ l, Base64.encodedSize v.length true ≤ intMax
  | _ => True

mutual
/-- What the decoder produces: arrays of objects have at least one item (empty
arrays are of another type, api/oc_rep_decode.c:248-253, 276), which is an object. -/
def Wf : Rep → Prop
  | .done => True
  | .leaf _ v next => LeafOk v ∧ Wf next
  | .obj _ child next => Wf child ∧ Wf next
  | .objArr _ items next => items.isDone = false ∧ WfItems items ∧ Wf next
def WfItems : Rep → Prop
  | .done => True
  | .obj _ child next => Wf child ∧ WfItems next
  | _ => False
end

/-- Usable names: not empty, shorter than 4096, no NUL. -/
def NameOk (n : List UInt8) : Prop := n ≠ [] ∧ n.length < 4096 ∧ (0 : UInt8) ∉ n

/-- Strings without NUL. -/
def StrOk : Leaf → Prop
  | .str s => (0 : UInt8) ∉ s
  | .strs l => ∀ s ∈ l, (0 : UInt8) ∉ s
  | .other => False
  | _ => True

mutual
/-- Usable names and strings throughout. -/
def Named : Rep → Prop
  | .done => True
  | .leaf n v next => NameOk n ∧ StrOk v ∧ Named next
  | .obj n child next => NameOk n ∧ Named child ∧ Named next
  | .objArr n items next => NameOk n ∧ NamedItems items ∧ Named next
def NamedItems : Rep → Prop
  | .obj _ child next => Named child ∧ NamedItems next
  | _ => True
end

/-! ## The program of a well-formed representation -/

theorem good_when (c : Bool) (p : Prog) (h : Good p) : Good (.when c p) := by
  cases c
  · trivial
  · exact h
theorem good_seq (p q : Prog) : Good (p ++ q) ↔ Good p ∧ Good q := Iff.rfl
theorem good_pick (c : Bool) (x y : String) : Good (pick c x y) := trivial

theorem good_sepLoop (c : Bool) (l : List (List UInt8)) : Good (sepLoop c l) := by
  fun_induction sepLoop c l with
  | case1 => trivial
  | case2 => trivial
  | case3 x r h ih => exact ⟨⟨trivial, trivial⟩, ih⟩

theorem good_lineLoop (c : Bool) (d : Nat) (l : List Prog) (h : ∀ p ∈ l, Good p) : Good (lineLoop c d l) := by
  fun_induction lineLoop c d l with
  | case1 => trivial
  | case2 x => exact ⟨⟨good_when _ _ trivial, h x (by simp)⟩, good_when _ _ trivial⟩
  | case3 x r hr ih =>
    exact ⟨⟨⟨good_when _ _ trivial, h x (by simp)⟩, trivial⟩, ih fun p hp => h p (by simp [hp])⟩

theorem good_ite (c : Prop) [Decidable c] (p q : Prog) (hp : Good p) (hq : Good q) :
    Good (if c then p else q) := by split <;> assumption

theorem good_leaf (c : Bool) (d : Nat) (n : List UInt8) (v : Leaf) (h : LeafOk v) : Good (leafProg c d n v) := by
  cases v with
  | bytes v => exact good_ite _ _ _ h trivial
  | ints l => exact ⟨⟨trivial, good_ite _ _ _ (good_sepLoop _ _) trivial⟩, trivial⟩
  | dbls l => exact ⟨⟨trivial, good_ite _ _ _ (good_sepLoop _ _) trivial⟩, trivial⟩
  | bools l => exact ⟨⟨trivial, good_ite _ _ _ (good_sepLoop _ _) trivial⟩, trivial⟩
  | bytess l =>
    refine ⟨⟨⟨trivial, good_ite _ _ _ (good_lineLoop _ _ _ ?_) trivial⟩, good_when _ _ trivial⟩, trivial⟩
    intro p hp
    obtain ⟨v, hv, rfl⟩ := List.mem_map.1 hp
    exact h v hv
  | strs l =>
    refine ⟨⟨⟨trivial, good_ite _ _ _ (good_lineLoop _ _ _ ?_) trivial⟩, good_when _ _ trivial⟩, trivial⟩
    intro p hp
    obtain ⟨v, hv, rfl⟩ := List.mem_map.1 hp
    trivial
  | _ => trivial

theorem good_head (c : Bool) (d : Nat) (n : List UInt8) : Good (head c d n) :=
  ⟨good_when _ _ trivial, good_ite _ _ _ trivial trivial⟩
theorem good_tail (c : Bool) (n : Rep) : Good (tail c n) := ⟨good_when _ _ trivial, good_when _ _ trivial⟩

mutual
theorem good_format (c : Bool) (d : Nat) : ∀ r : Rep, Wf r → Good (format c d r)
  | .done, _ => by rw [format]; trivial
  | .leaf n v next, h => by
    rw [Wf] at h; rw [format]
    exact ⟨⟨⟨good_head .., good_leaf _ _ _ _ h.1⟩, good_tail ..⟩, good_format c d next h.2⟩
  | .obj n child next, h => by
    rw [Wf] at h; rw [format]
    exact ⟨⟨⟨⟨⟨⟨good_head .., trivial⟩, good_format c (d + 1) child h.1⟩, good_when _ _ trivial⟩, trivial⟩,
      good_tail ..⟩, good_format c d next h.2⟩
  | .objArr n items next, h => by
    rw [Wf] at h; rw [format]
    refine ⟨⟨⟨⟨⟨⟨⟨good_head .., trivial⟩, good_when _ _ trivial⟩, ?_⟩, good_when _ _ trivial⟩, trivial⟩,
      good_tail ..⟩, good_format c d next h.2.2⟩
    rw [h.1]
    exact good_items c d items h.2.1
theorem good_items (c : Bool) (d : Nat) : ∀ r : Rep, WfItems r → Good (itemsProg c d r)
  | .done, _ => by rw [itemsProg]; trivial
  | .leaf .., h => by rw [WfItems] at h; exact h.elim
                      all_goals (intros; simp_all)
  | .objArr .., h => by rw [WfItems] at h; exact h.elim
                        all_goals (intros; simp_all)
  | .obj _ child next, h => by
    rw [WfItems] at h; rw [itemsProg]
    exact ⟨⟨⟨good_when _ _ trivial, trivial⟩, good_format c (d + 2) child h.1⟩,
      good_ite _ _ _ trivial ⟨⟨good_when _ _ trivial, trivial⟩, good_items c d next h.2⟩⟩
end

theorem good_toJson (c : Bool) (r : Rep) (h : Wf r) : Good (toJson c r) :=
  ⟨⟨⟨⟨trivial, good_when _ _ trivial⟩, good_when _ _ (good_format c 0 r h)⟩, trivial⟩, good_when _ _ trivial⟩

/-! No indentation without pretty printing. -/

theorem plain_sepLoop (c : Bool) (l : List (List UInt8)) : Plain (sepLoop c l) := by
  fun_induction sepLoop c l with
  | case1 => trivial
  | case2 => trivial
  | case3 x r h ih => exact ⟨⟨trivial, trivial⟩, ih⟩

theorem plain_lineLoop (d : Nat) (l : List Prog) (h : ∀ p ∈ l, Plain p) : Plain (lineLoop false d l) := by
  fun_induction lineLoop false d l with
  | case1 => trivial
  | case2 x => exact ⟨⟨trivial, h x (by simp)⟩, trivial⟩
  | case3 x r hr ih => exact ⟨⟨⟨trivial, h x (by simp)⟩, trivial⟩, ih fun p hp => h p (by simp [hp])⟩

theorem plain_ite (c : Prop) [Decidable c] (p q : Prog) (hp : Plain p) (hq : Plain q) :
    Plain (if c then p else q) := by split <;> assumption

theorem plain_leaf (d : Nat) (n : List UInt8) (v : Leaf) : Plain (leafProg false d n v) := by
  cases v with
  | bytes v => exact plain_ite _ _ _ trivial trivial
  | ints l => exact ⟨⟨trivial, plain_ite _ _ _ (plain_sepLoop _ _) trivial⟩, trivial⟩
  | dbls l => exact ⟨⟨trivial, plain_ite _ _ _ (plain_sepLoop _ _) trivial⟩, trivial⟩
  | bools l => exact ⟨⟨trivial, plain_ite _ _ _ (plain_sepLoop _ _) trivial⟩, trivial⟩
  | bytess l =>
    refine ⟨⟨⟨trivial, plain_ite _ _ _ (plain_lineLoop _ _ ?_) trivial⟩, trivial⟩, trivial⟩
    intro p hp
    obtain ⟨v, hv, rfl⟩ := List.mem_map.1 hp
    trivial
  | strs l =>
    refine ⟨⟨⟨trivial, plain_ite _ _ _ (plain_lineLoop _ _ ?_) trivial⟩, trivial⟩, trivial⟩
    intro p hp
    obtain ⟨v, hv, rfl⟩ := List.mem_map.1 hp
    trivial
  | _ => trivial

theorem plain_head (d : Nat) (n : List UInt8) : Plain (head false d n) :=
  ⟨trivial, plain_ite _ _ _ trivial trivial⟩
theorem plain_tail (n : Rep) : Plain (tail false n) := by
  refine ⟨?_, trivial⟩
  cases n <;> trivial

mutual
theorem plain_format (d : Nat) : ∀ r : Rep, Plain (format false d r)
  | .done => by rw [format]; trivial
  | .leaf n v next => by
    rw [format]; exact ⟨⟨⟨plain_head .., plain_leaf ..⟩, plain_tail ..⟩, plain_format d next⟩
  | .obj n child next => by
    rw [format]
    exact ⟨⟨⟨⟨⟨⟨plain_head .., trivial⟩, plain_format (d + 1) child⟩, trivial⟩, trivial⟩,
      plain_tail ..⟩, plain_format d next⟩
  | .objArr n items next => by
    rw [format]
    exact ⟨⟨⟨⟨⟨⟨⟨plain_head .., trivial⟩, trivial⟩, plain_ite _ _ _ trivial (plain_items d items)⟩, trivial⟩,
      trivial⟩, plain_tail ..⟩, plain_format d next⟩
theorem plain_items (d : Nat) : ∀ r : Rep, Plain (itemsProg false d r)
  | .done => by rw [itemsProg]; trivial
  | .leaf .. => by rw [itemsProg]; trivial
  | .objArr .. => by rw [itemsProg]; trivial
  | .obj _ child next => by
    rw [itemsProg]
    exact ⟨⟨⟨trivial, trivial⟩, plain_format (d + 2) child⟩,
      plain_ite _ _ _ trivial ⟨⟨trivial, trivial⟩, plain_items d next⟩⟩
end

theorem plain_toJson (r : Rep) : Plain (toJson false r) := by
  refine ⟨⟨⟨⟨trivial, trivial⟩, ?_⟩, trivial⟩, trivial⟩
  cases (rootArray r).2
  · trivial
  · exact plain_format 0 r

/-! ## Properties -/

/-- C26. Dumping any representation, in either format, into a buffer of any size
never accesses memory outside the buffer. -/
theorem dump_memory_safe (pretty : Bool) (r : Rep) (h : Wf r) (mem : List UInt8) (null : Bool) :
    ∃ mem' n, dump pretty r mem null = .ok (mem', n) ∧ mem'.length = mem.length := by
  obtain ⟨l, e, _, hm, _⟩ := run_safe (toJson pretty r) ⟨mem, 0, mem.length, 0, null⟩ (by simp [Fits])
    (good_toJson pretty r h)
  exact ⟨l.mem, l.total, by rw [dump, e]; rfl, hm⟩

theorem strong_start (mem : List UInt8) (null : Bool) : Strong mem.length [] ⟨mem, 0, mem.length, 0, null⟩ := by
  refine ⟨⟨rfl, by simp, by simp, by simp, ?_⟩, by simp⟩
  intro h h'; simp only [List.length_nil] at h; omega

theorem text_seq (p q : Prog) : text (p ++ q) = text p ++ text q := rfl

theorem text_ne (c : Bool) (r : Rep) : text (toJson c r) ≠ [] := by
  intro h
  rw [toJson, text_seq, text_seq, text_seq, text_seq] at h
  simp only [List.append_eq_nil_iff] at h
  have h1 := h.1.1.1.1
  cases hx : (rootArray r).1 <;> rw [hx] at h1 <;> revert h1 <;> decide

/-- C26, compact format: the returned length does not depend on the buffer (it is
the length of the text), and the buffer holds a NUL-terminated beginning of the
text, the whole text if there is room for it and the NUL. -/
theorem dump_compact (r : Rep) (h : Wf r) (hlen : (text (toJson false r)).length < 2 ^ 64)
    (mem : List UInt8) (null : Bool) (hn : null = true → mem = []) :
    ∃ mem', dump false r mem null = .ok (mem', (text (toJson false r)).length) ∧
      mem'.length = mem.length ∧
      (mem ≠ [] → ∃ k, k < mem.length ∧ mem'[k]? = some 0 ∧ mem'.take k = (text (toJson false r)).take k) ∧
      ((text (toJson false r)).length < mem.length →
        mem'.take ((text (toJson false r)).length + 1) = text (toJson false r) ++ [0]) := by
  obtain ⟨l, e, s, t, -⟩ := run_exact mem.length (toJson false r) [] ⟨mem, 0, mem.length, 0, null⟩
    (strong_start mem null) (good_toJson false r h) (.inl (plain_toJson r))
    (fun x => by rw [hn x]; rfl) (by simp) hlen
  simp only [List.nil_append, Nat.zero_add] at s t
  rw [sz, Nat.mod_eq_of_lt hlen] at t
  refine ⟨l.mem, by rw [dump, e, Out.bind, t], s.weak.len, ?_, ?_⟩
  · intro hne
    have hpos : 0 < mem.length := List.length_pos_iff.2 hne
    by_cases hx : mem.length ≤ (text (toJson false r)).length
    · obtain ⟨k, a, c, d⟩ := s.weak.nul hx hpos
      exact ⟨k, a, d, c⟩
    · refine ⟨(text (toJson false r)).length, by omega, s.term (by omega) (text_ne false r), ?_⟩
      rw [s.weak.pre (by omega), List.take_length]
  · intro hx
    rw [List.take_add_one, s.weak.pre hx, s.term hx (text_ne false r)]; rfl

/-- C26, either format: a call with a null buffer returns the length of the text,
and a call with a buffer of that length plus one yields the text. -/
theorem dump_two_calls (pretty : Bool) (r : Rep) (h : Wf r) (hlen : (text (toJson pretty r)).length < 2 ^ 64) :
    ∃ n, dump pretty r [] true = .ok ([], n) ∧
      ∀ mem, mem.length = n + 1 → dump pretty r mem false = .ok (text (toJson pretty r) ++ [0], n) := by
  refine ⟨(text (toJson pretty r)).length, ?_, ?_⟩
  · obtain ⟨l, e, s, t, -⟩ := run_exact 0 (toJson pretty r) [] ⟨[], 0, 0, 0, true⟩
      (strong_start [] true) (good_toJson pretty r h) (.inr (.inl ⟨rfl, rfl⟩)) (fun _ => rfl) (by simp) hlen
    simp only [Nat.zero_add] at t
    rw [sz, Nat.mod_eq_of_lt hlen] at t
    have hm : l.mem = [] := List.eq_nil_of_length_eq_zero s.weak.len
    rw [dump]
    show (run _ ⟨[], 0, 0, 0, true⟩).bind _ = _
    rw [e, Out.bind, t, hm]
  · intro mem hmem
    obtain ⟨l, e, s, t, -⟩ := run_exact mem.length (toJson pretty r) [] ⟨mem, 0, mem.length, 0, false⟩
      (strong_start mem false) (good_toJson pretty r h) (.inr (.inr (by simp only [List.length_nil]; omega)))
      (by simp) (by simp) hlen
    simp only [List.nil_append, Nat.zero_add] at s t
    rw [sz, Nat.mod_eq_of_lt hlen] at t
    have hx : (text (toJson pretty r)).length < mem.length := by omega
    have h1 : l.mem = text (toJson pretty r) ++ [0] := by
      have h2 : l.mem.take ((text (toJson pretty r)).length + 1) = text (toJson pretty r) ++ [0] := by
        rw [List.take_add_one, s.weak.pre hx, s.term hx (text_ne pretty r)]; rfl
      rw [← h2, List.take_of_length_le (by rw [s.weak.len]; omega)]
    rw [dump, e, Out.bind, t, h1]

/-! ## The compact text -/

theorem cstr_eq (s : List UInt8) (h : (0 : UInt8) ∉ s) : cstr s = s := by
  unfold cstr
  induction s with
  | nil => rfl
  | cons x s ih =>
    simp only [List.mem_cons, not_or] at h
    rw [List.takeWhile_cons, if_pos (by simp [Ne.symm h.1]), ih h.2]

theorem join_cons (sep x : List UInt8) (l : List (List UInt8)) (h : l ≠ []) :
    Spec.join sep (x :: l) = x ++ sep ++ Spec.join sep l := by
  cases l with
  | nil => exact absurd rfl h
  | cons => rfl

theorem text_sepLoop (l : List (List UInt8)) : text (sepLoop false l) = Spec.join (b ",") l := by
  induction l with
  | nil => rfl
  | cons x l ih =>
    cases l with
    | nil => rfl
    | cons y l => rw [sepLoop, text_seq, text_seq, ih, join_cons _ x _ (by simp)]; rfl
                  simp

theorem text_lineLoop (d : Nat) (l : List Prog) : text (lineLoop false d l) = Spec.join (b ",") (l.map text) := by
  induction l with
  | nil => rfl
  | cons x l ih =>
    cases l with
    | nil => rw [lineLoop, text_seq, text_seq]; simp [Prog.when, text, Spec.join]
    | cons y l =>
      rw [lineLoop, text_seq, text_seq, text_seq, ih, List.map_cons (a := x), join_cons _ (text x) _ (by simp)]
      · simp [Prog.when, text, pick]
      · simp

theorem findable_ok (n : List UInt8) (h : NameOk n) : findable n = true := by
  have := List.length_pos_iff.2 h.1
  simp [findable, this, h.2.1]

theorem text_leaf (d : Nat) (n : List UInt8) (hn : NameOk n) (v : Leaf) (h : StrOk v) :
    text (leafProg false d n v) = Spec.leaf v := by
  cases v with
  | nil => rfl
  | int => rfl
  | dbl => rfl
  | bool => rfl
  | bytes v => rw [leafProg, if_pos (findable_ok n hn)]; rfl
  | str s => rw [leafProg, text, quote, cstr_eq s h]; rfl
  | ints l => rw [leafProg, if_pos (findable_ok n hn), text_seq, text_seq, text_sepLoop]; rfl
  | dbls l => rw [leafProg, if_pos (findable_ok n hn), text_seq, text_seq, text_sepLoop]; rfl
  | bools l => rw [leafProg, if_pos (findable_ok n hn), text_seq, text_seq, text_sepLoop]; rfl
  | bytess l =>
    rw [leafProg, if_pos (findable_ok n hn), text_seq, text_seq, text_seq, text_lineLoop, List.map_map]
    simp [Prog.when, text, pick, Spec.leaf, Spec.arr, Spec.str]
    rfl
  | strs l =>
    rw [leafProg, if_pos (findable_ok n hn), text_seq, text_seq, text_seq, text_lineLoop, List.map_map]
    have : l.map (text ∘ fun s => Prog.txt (quote s)) = l.map Spec.str := by
      apply List.map_congr_left
      intro s hs
      simp only [Function.comp_apply, text, quote, cstr_eq s (h s hs), Spec.str]
    rw [this]
    simp [Prog.when, text, pick, Spec.leaf, Spec.arr]
  | other => exact h.elim

theorem text_head (d : Nat) (n : List UInt8) (hn : NameOk n) :
    text (head false d n) = Spec.str n ++ b ":" := by
  have := List.length_pos_iff.2 hn.1
  rw [head, text_seq, if_pos this, text, cstr_eq n hn.2.2, Prog.when, if_neg (by simp), text]
  simp only [Spec.str, List.nil_append, Bool.false_eq_true, if_false, List.append_assoc]
  congr 2

theorem members_nil (r : Rep) : Spec.members r = [] ↔ r.isDone = true := by
  cases r <;> simp [Spec.members, Rep.isDone]

theorem objects_nil (r : Rep) (h : WfItems r) : Spec.objects r = [] ↔ r.isDone = true := by
  cases r with
  | done => simp [Spec.objects, Rep.isDone]
  | obj => simp [Spec.objects, Rep.isDone]
  | leaf => simp [WfItems] at h
  | objArr => simp [WfItems] at h

theorem text_tail (n : Rep) (x : List UInt8) :
    x ++ text (tail false n) ++ Spec.join (b ",") (Spec.members n) =
      Spec.join (b ",") (x :: Spec.members n) := by
  cases hn : n.isDone with
  | true =>
    rw [(members_nil n).2 hn]
    simp [tail, text_seq, hn, Prog.when, text, Spec.join]
  | false =>
    rw [join_cons _ _ _ (by rw [Ne, members_nil, hn]; simp)]
    simp [tail, text_seq, hn, Prog.when, text]

mutual
theorem text_format (d : Nat) : ∀ r : Rep, Wf r → Named r →
    text (format false d r) = Spec.join (b ",") (Spec.members r)
  | .done, _, _ => by rw [format]; rfl
  | .leaf n v next, h, hn => by
    rw [Wf] at h; rw [Named] at hn
    rw [format, Spec.members, ← text_tail, text_seq, text_seq, text_seq, text_head d n hn.1,
      text_leaf d n hn.1 v hn.2.1, text_format d next h.2 hn.2.2]; rfl
  | .obj n child next, h, hn => by
    rw [Wf] at h; rw [Named] at hn
    rw [format, Spec.members, ← text_tail]
    simp only [text_seq]
    rw [text_head d n hn.1, text_format d next h.2 hn.2.2]
    simp only [text]
    rw [text_format (d + 1) child h.1 hn.2.1]
    simp [Spec.member, Prog.when, text, pick]
  | .objArr n items next, h, hn => by
    rw [Wf] at h; rw [Named] at hn
    rw [format, Spec.members, ← text_tail, h.1]
    simp only [text_seq]
    rw [text_head d n hn.1, text_format d next h.2.2 hn.2.2]
    have := text_items d items h.2.1 hn.2.1 h.1
    have hb : b "}]" = b "}" ++ b "]" := by decide
    simp [Spec.member, Prog.when, text, Spec.arr, ← this, hb]
theorem text_items (d : Nat) : ∀ r : Rep, WfItems r → NamedItems r → r.isDone = false →
    text (itemsProg false d r) ++ b "}" = Spec.join (b ",") (Spec.objects r)
  | .done, _, _, h => by cases h
  | .leaf .., h, _, _ => by simp [WfItems] at h
  | .objArr .., h, _, _ => by simp [WfItems] at h
  | .obj _ child next, h, hn, _ => by
    rw [WfItems] at h; rw [NamedItems] at hn
    rw [itemsProg, Spec.objects]
    simp only [text_seq]
    have hc := text_format (d + 2) child h.1 hn.1
    cases hd : next.isDone with
    | true =>
      rw [(objects_nil next h.2).2 hd]
      simp [Prog.when, text, pick, Spec.join, hc]
    | false =>
      rw [join_cons _ _ _ (by rw [Ne, objects_nil next h.2, hd]; simp), ← text_items d next h.2 hn.2 hd]
      have hb : b "}," = b "}" ++ b "," := by decide
      simp [Prog.when, text, pick, text_seq, hc, hb]
end

/-- C26: the compact text is the JSON text of the object: its members in order,
each with its name and value. -/
theorem compact_text (r : Rep) (h : Wf r) (hn : Named r) : text (toJson false r) = Spec.json r := by
  have hr : rootArray r = (false, true) := by
    cases r with
    | obj n c x =>
      rw [Named] at hn
      rw [rootArray, if_neg]
      have := List.length_pos_iff.2 hn.1.1
      omega
    | _ => rfl
  rw [toJson, hr]
  simp only [text_seq]
  have := text_format 0 r h hn
  simp [Prog.when, text, Spec.json, this]

/-- C26, put together. -/
theorem dump_compact_json (r : Rep) (h : Wf r) (hn : Named r) (hlen : (Spec.json r).length < 2 ^ 64) :
    dump false r [] true = .ok ([], (Spec.json r).length) ∧
      ∀ mem, mem.length = (Spec.json r).length + 1 →
        dump false r mem false = .ok (Spec.json r ++ [0], (Spec.json r).length) := by
  have ht := compact_text r h hn
  obtain ⟨n, e, f⟩ := dump_two_calls false r h (by rw [ht]; exact hlen)
  obtain ⟨m', e', hl', -, -⟩ := dump_compact r h (by rw [ht]; exact hlen) [] true (fun _ => rfl)
  rw [e, ht] at e'
  injection e' with e'; injection e' with e1 e2
  subst e2
  exact ⟨e, fun mem hm => by rw [f mem hm, ht]⟩

/-! ## Examples -/

/-- `{"a":1,"s":["x","y"],"o":[{"b":true},{"d":"AQID"}]}`. -/
def exRep : Rep :=
  .leaf (b "a") (.int 1) (.leaf (b "s") (.strs [b "x", b "y"])
    (.objArr (b "o") (.obj [] (.leaf (b "b") (.bool true) .done)
      (.obj [] (.leaf (b "d") (.bytes [1, 2, 3]) .done) .done)) .done))

example : Wf exRep ∧ Named exRep := by
  simp only [exRep, Wf, WfItems, Named, NamedItems, NameOk, StrOk, LeafOk, Rep.isDone]
  decide
example : Spec.json exRep = b "{\"a\":1,\"s\":[\"x\",\"y\"],\"o\":[{\"b\":true},{\"d\":\"AQID\"}]}" := by
  decide +kernel
example : dump false exRep (List.replicate 9 7) false = .ok (b "{\"a\":1,\"" ++ [0], 51) := by decide +kernel

/-! ## What does not hold -/

/-- `{"a":1}`. -/
def tiny : Rep := .leaf (b "a") (.int 1) .done

/-- Pretty printing into a buffer that is too small does not return the length of
the text, neither modulo 2^64: it returns less. -/
theorem pretty_small_buffer_false :
    dump true tiny [] true = .ok ([], 14) ∧
    dump true tiny (List.replicate 3 7) false = .ok (b "{\n" ++ [0], 11) := by decide +kernel

/-- Strings are not escaped: different representations have the same text, which
need not be the JSON text of either. -/
theorem unescaped_false :
    (Wf (.leaf (b "a") (.str (b "x\",\"c\":\"y")) .done) ∧ Named (.leaf (b "a") (.str (b "x\",\"c\":\"y")) .done)) ∧
    dump false (.leaf (b "a") (.str (b "x\",\"c\":\"y")) .done) (List.replicate 40 0) false =
      dump false (.leaf (b "a") (.str (b "x")) (.leaf (b "c") (.str (b "y")) .done)) (List.replicate 40 0) false := by
  refine ⟨⟨?_, ?_⟩, by decide +kernel⟩
  · simp [Wf, LeafOk]
  · simp only [Named, NameOk, StrOk]; decide

/-- An array of objects without items is dereferenced as null pointer (the decoder
does not produce it; a caller building a representation by hand could). -/
theorem empty_object_array_ub :
    dump false (.objArr (b "a") .done .done) [] true = .ub ∧
    dump true (.objArr (b "a") .done .done) (List.replicate 64 0) false = .ub := by decide +kernel

end Verif.RepJson
