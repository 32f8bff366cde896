import Verif.Rep.Model

/-! C47: looking up properties of a representation. -/

namespace Verif.Rep

/-- A key the getters accept. -/
def Usable (key : Bytes) : Prop := key ≠ [] ∧ key.length < 4096 ∧ (0 : UInt8) ∉ key

/-- The property `key` of the type made by `mk` has the value `a`: there is one, and
no earlier property has that name and type. -/
def Has {α : Type} (mk : α → Val) (rep : Rep) (key : Bytes) (a : α) : Prop :=
  ∃ before after, rep = before ++ (key, mk a) :: after ∧ ∀ a', (key, mk a') ∉ before

/-- No property of that name and type. -/
def Lacks {α : Type} (mk : α → Val) (rep : Rep) (key : Bytes) : Prop := ∀ a, (key, mk a) ∉ rep

theorem takeWhile_all (l : Bytes) (h : (0 : UInt8) ∉ l) : l.takeWhile (· != 0) = l := by
  induction l with
  | nil => rfl
  | cons x l ih =>
    simp only [List.mem_cons, not_or] at h
    rw [List.takeWhile_cons, if_pos (by simp [Ne.symm h.1]), ih h.2]

theorem cKey_eq (key : Bytes) (h : Usable key) : cKey key = key := by
  rw [cKey, takeWhile_all _ h.2.2, List.take_of_length_le (by have := h.2.1; omega)]

/-- The loop and the specification. -/
theorem loop_spec {α : Type} (mk : α → Val) (type : Ty) (ht : ∀ v, v.ty = type ↔ ∃ a, v = mk a)
    (key : Bytes) (rep : Rep) :
    (∃ a, getByTypeAndKey.loop type key rep = some (key, mk a) ∧ Has mk rep key a) ∨
    (getByTypeAndKey.loop type key rep = none ∧ Lacks mk rep key) := by
  induction rep with
  | nil => exact .inr ⟨rfl, fun a h => by cases h⟩
  | cons v r ih =>
    obtain ⟨n, v⟩ := v
    rw [getByTypeAndKey.loop]
    by_cases h1 : v.ty = type
    · obtain ⟨a, rfl⟩ := (ht v).1 h1
      rw [if_neg (fun hx => hx h1)]
      by_cases h2 : n = key
      · subst h2
        rw [if_pos rfl]
        exact .inl ⟨a, rfl, [], r, rfl, fun a' h => by cases h⟩
      · rw [if_neg h2]
        rcases ih with ⟨a', e, p, q, e', hp⟩ | ⟨e, hl⟩
        · refine .inl ⟨a', e, (n, mk a) :: p, q, by rw [e']; rfl, ?_⟩
          intro a'' h
          rcases List.mem_cons.1 h with h | h
          · injection h with h _; exact h2 h.symm
          · exact hp a'' h
        · refine .inr ⟨e, ?_⟩
          intro a'' h
          rcases List.mem_cons.1 h with h | h
          · injection h with h _; exact h2 h.symm
          · exact hl a'' h
    · rw [if_pos h1]
      have hne : ∀ a, v ≠ mk a := fun a h => h1 ((ht v).2 ⟨a, h⟩)
      rcases ih with ⟨a', e, p, q, e', hp⟩ | ⟨e, hl⟩
      · refine .inl ⟨a', e, (n, v) :: p, q, by rw [e']; rfl, ?_⟩
        intro a'' h
        rcases List.mem_cons.1 h with h | h
        · injection h with _ h; exact hne a'' h.symm
        · exact hp a'' h
      · refine .inr ⟨e, ?_⟩
        intro a'' h
        rcases List.mem_cons.1 h with h | h
        · injection h with _ h; exact hne a'' h.symm
        · exact hl a'' h

/-- At most one value is the first. -/
theorem has_unique {α : Type} (mk : α → Val) (inj : ∀ a a', mk a = mk a' → a = a') (rep : Rep) (key : Bytes)
    (a a' : α) (h : Has mk rep key a) (h' : Has mk rep key a') : a = a' := by
  obtain ⟨p, q, e, hp⟩ := h
  obtain ⟨p', q', e', hp'⟩ := h'
  rw [e] at e'
  rcases List.append_eq_append_iff.1 e' with ⟨x, e1, e2⟩ | ⟨x, e1, e2⟩
  · cases x with
    | nil => simp only [List.nil_append] at e2; injection e2 with e2 _; injection e2 with _ e2; exact inj _ _ e2
    | cons y x =>
      injection e2 with e2 _
      exact absurd (by rw [e1, ← e2]; simp) (hp' a)
  · cases x with
    | nil => simp only [List.nil_append] at e2; injection e2 with e2 _; injection e2 with _ e2; exact (inj _ _ e2).symm
    | cons y x =>
      injection e2 with e2 _
      exact absurd (by rw [e1, ← e2]; simp) (hp a')

/-- Every getter: the value of the first property of the name and type, absence
otherwise; never a reinterpreted value. -/
theorem get_spec {α : Type} (mk : α → Val) (read : Val → Option α) (type : Ty)
    (ht : ∀ v, v.ty = type ↔ ∃ a, v = mk a) (hr : ∀ a, read (mk a) = some a) (hna : type ≠ .arr)
    (rep : Rep) (key : Bytes) (hk : Usable key) :
    (∃ a, get read type rep key = .ok (some a) ∧ Has mk rep key a) ∨
    (get read type rep key = .ok none ∧ Lacks mk rep key) := by
  have hlen := List.length_pos_iff.2 hk.1
  have hlt := hk.2.1
  rw [get, cKey_eq key hk, getValue, getByTypeAndKey, if_neg (by omega)]
  rcases loop_spec mk type ht key rep with ⟨a, e, h⟩ | ⟨e, h⟩
  · refine .inl ⟨a, ?_, h⟩
    rw [e]
    dsimp only
    rw [if_neg (by rw [(ht _).2 ⟨a, rfl⟩]; exact hna)]
    dsimp only
    rw [hr]
  · refine .inr ⟨?_, h⟩
    rw [e]

/-- The getter finds `a` exactly if the first property of that name and type has
the value `a`. -/
def Exactly {α : Type} (getter : Rep → Bytes → Out (Option α)) (mk : α → Val) : Prop :=
  ∀ rep key, Usable key →
    (∀ a, getter rep key = .ok (some a) ↔ Has mk rep key a) ∧
    (getter rep key = .ok none ↔ Lacks mk rep key) ∧ getter rep key ≠ .ub

theorem exactly {α : Type} (mk : α → Val) (read : Val → Option α) (type : Ty)
    (ht : ∀ v, v.ty = type ↔ ∃ a, v = mk a) (hr : ∀ a, read (mk a) = some a) (hna : type ≠ .arr) :
    Exactly (get read type) mk := by
  have inj : ∀ a a', mk a = mk a' → a = a' := by
    intro a a' h
    have := hr a
    rw [h, hr a'] at this
    injection this with this
    exact this.symm
  intro rep key hk
  rcases get_spec mk read type ht hr hna rep key hk with ⟨a, e, h⟩ | ⟨e, h⟩
  · rw [e]
    refine ⟨fun a' => ⟨?_, ?_⟩, ⟨?_, ?_⟩, by simp⟩
    · intro h'; injection h' with h'; injection h' with h'; subst h'; exact h
    · intro h'; rw [has_unique mk inj rep key a a' h h']
    · intro h'; injection h' with h'; cases h'
    · intro h'
      obtain ⟨p, q, e', -⟩ := h
      exact absurd (by rw [e']; simp) (h' a)
  · rw [e]
    refine ⟨fun a' => ⟨?_, ?_⟩, ⟨fun _ => h, fun _ => rfl⟩, by simp⟩
    · intro h'; injection h' with h'; cases h'
    · intro h'
      obtain ⟨p, q, e', -⟩ := h'
      exact absurd (by rw [e']; simp) (h a')

/-! ## C47 for each getter -/

theorem getInt_spec : Exactly getInt .int :=
  exactly Val.int Val.asInt .int (fun v => by cases v <;> simp [Val.ty]) (fun _ => rfl) (by decide)
theorem getBool_spec : Exactly getBool .bool :=
  exactly Val.bool Val.asBool .bool (fun v => by cases v <;> simp [Val.ty]) (fun _ => rfl) (by decide)
theorem getDouble_spec : Exactly getDouble .dbl :=
  exactly Val.dbl Val.asDbl .dbl (fun v => by cases v <;> simp [Val.ty]) (fun _ => rfl) (by decide)
theorem getByteString_spec : Exactly getByteString .bytes :=
  exactly Val.bytes Val.asBytes .bytes (fun v => by cases v <;> simp [Val.ty]) (fun _ => rfl) (by decide)
theorem getString_spec : Exactly getString .str :=
  exactly Val.str Val.asStr .str (fun v => by cases v <;> simp [Val.ty]) (fun _ => rfl) (by decide)
theorem getIntArray_spec : Exactly getIntArray .ints :=
  exactly Val.ints Val.asInts .ints (fun v => by cases v <;> simp [Val.ty]) (fun _ => rfl) (by decide)
theorem getBoolArray_spec : Exactly getBoolArray .bools :=
  exactly Val.bools Val.asBools .bools (fun v => by cases v <;> simp [Val.ty]) (fun _ => rfl) (by decide)
theorem getDoubleArray_spec : Exactly getDoubleArray .dbls :=
  exactly Val.dbls Val.asDbls .dbls (fun v => by cases v <;> simp [Val.ty]) (fun _ => rfl) (by decide)
theorem getByteStringArray_spec : Exactly getByteStringArray .bytess :=
  exactly Val.bytess Val.asBytess .bytess (fun v => by cases v <;> simp [Val.ty]) (fun _ => rfl) (by decide)
theorem getStringArray_spec : Exactly getStringArray .strs :=
  exactly Val.strs Val.asStrs .strs (fun v => by cases v <;> simp [Val.ty]) (fun _ => rfl) (by decide)
theorem getObject_spec : Exactly getObject .obj :=
  exactly Val.obj Val.asObj .obj (fun v => by cases v <;> simp [Val.ty]) (fun _ => rfl) (by decide)
theorem getObjectArray_spec : Exactly getObjectArray .objs :=
  exactly Val.objs Val.asObjs .objs (fun v => by cases v <;> simp [Val.ty]) (fun _ => rfl) (by decide)

/-- `oc_rep_is_null` reports `true` exactly if there is a null property of the name. -/
theorem isNull_spec (rep : Rep) (key : Bytes) (hk : Usable key) :
    (isNull rep key = .ok (some true) ↔ (key, Val.nil) ∈ rep) ∧
    (isNull rep key = .ok none ↔ (key, Val.nil) ∉ rep) := by
  have hlen := List.length_pos_iff.2 hk.1
  have hlt := hk.2.1
  have ht : ∀ v : Val, v.ty = .nil ↔ ∃ a : Unit, v = (fun _ => Val.nil) a := by
    intro v; cases v <;> simp [Val.ty]
  rw [isNull, get, cKey_eq key hk, getValue, getByTypeAndKey, if_neg (by omega)]
  rcases loop_spec (fun _ : Unit => Val.nil) .nil ht key rep with ⟨a, e, p, q, e', -⟩ | ⟨e, h⟩
  · rw [e]
    have : (key, Val.nil) ∈ rep := by rw [e']; simp
    simp [Val.ty, Val.asNil, this]
  · rw [e]
    have := h ()
    simp [this]

/-- A key that is empty or not shorter than 4096 bytes is never found. -/
theorem unusable_key (rep : Rep) (type : Ty) (key : Bytes) (h : key.length = 0 ∨ 4096 ≤ key.length) :
    getValue rep type key = none := by
  rw [getValue, getByTypeAndKey, if_pos h]

/-- Concrete case: the first of two properties of the same name and type; the
property of the same name and another type is skipped. -/
def exRep : Rep := [(b "a", .str (b "x")), (b "b", .int 7), (b "a", .int 1), (b "a", .int 2)]
theorem exUsable : Usable (b "a") := by unfold Usable; decide
example : getInt exRep (b "a") = .ok (some 1) := rfl
example : getString exRep (b "a") = .ok (some (b "x")) := rfl
example : getBool exRep (b "a") = .ok none := rfl
example : Has Val.int exRep (b "a") 1 := (getInt_spec exRep (b "a") exUsable).1 1 |>.1 rfl

end Verif.Rep
