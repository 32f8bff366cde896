/-!
Shared definitions of the model: outcomes of C code and small helpers that are
used by several areas.
-/

namespace Verif

/-- Outcome of a piece of C code: `ok` is a normal return, `ub` stands for
undefined behaviour (out-of-bounds access, NULL dereference, signed overflow,
use after free, failed assertion).  Modelling convention of this development,
not a /repo definition: C11 §3.4.3. -/
inductive Out (α : Type u) where
  | ok (a : α)
  | ub
  deriving Repr, DecidableEq

namespace Out

/-- Sequencing of outcomes: undefined behaviour is absorbing (modelling
convention, no /repo counterpart). -/
@[inline] def bind {α : Type u} {β : Type v} (x : Out α) (f : α → Out β) : Out β :=
  match x with
  | .ok a => f a
  | .ub => .ub

instance : Monad Out where
  pure := .ok
  bind := Out.bind

@[simp] theorem ok_bind {α β : Type u} (a : α) (f : α → Out β) : (Out.ok a >>= f) = f a := rfl
@[simp] theorem ub_bind {α β : Type u} (f : α → Out β) : ((Out.ub : Out α) >>= f) = .ub := rfl
@[simp] theorem pure_eq {α : Type u} (a : α) : (pure a : Out α) = .ok a := rfl

/-- Array access: index outside the object is undefined behaviour (C11 §6.5.6,
modelling convention). -/
def get {α : Type u} (l : List α) (i : Nat) : Out α :=
  match l[i]? with
  | some a => .ok a
  | none => .ub

end Out

/-- `INT_MAX` of the supported platforms (32 bit `int`). -/
def intMax : Nat := 2147483647

/-- Universally quantified facts about one byte follow from their 256 instances. -/
theorem forall_u8 {P : UInt8 → Prop} (h : ∀ n : Fin 256, P (UInt8.ofNat n.val)) :
    ∀ a, P a := by
  intro a
  have := h ⟨a.toNat, a.toNat_lt⟩
  simpa using this

end Verif
