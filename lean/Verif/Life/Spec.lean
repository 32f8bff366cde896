import Verif.Life.Model

namespace Verif.Life

/-- The application passes memory of the right kind that it has not freed. -/
def Own (s : St) : Op → Prop
  | .add a | .changed a | .changedLater a | .observersLater a => ∃ x, s.heap a = some x
  | .link c a => (∃ y, s.heap c = some y ∧ y.col = true) ∧ ∃ x, s.heap a = some x
  | .unlink c _ | .deleteCol c => ∃ y, s.heap c = some y ∧ y.col = true
  | .wrote c => c ∈ s.cols
  | .delete a | .later a => ∃ x, s.heap a = some x ∧ x.col = false
  | _ => True

/-- The object is on a list. -/
def Listed (s : St) (a : Nat) : Prop := a ∈ s.app ∨ a ∈ s.del ∨ a ∈ s.cols

/-- What else has to be minded; the code does not ask for it:
a collection is added before it is linked from, a resource before it is linked, once
in a collection and only in collections of its device; a resource has at most 255
observers; a resource that is deleted later was added; and a collection is deleted
without observers, without delayed notifications of the application, and when no other
collection links it. -/
def Minded (s : St) : Op → Prop
  | .link c a => c ∈ s.cols ∧ (a ∈ s.app ∨ a ∈ s.cols) ∧ a ∉ s.links c ∧ (s.heap c).map Obj.dev = (s.heap a).map Obj.dev
  | .observe _ _ a => (s.obs.filter fun o => o.res == a).length < 255
  | .later a => a ∈ s.app ∨ a ∈ s.del
  | .deleteCol c => (∀ o ∈ s.obs, o.res ≠ c) ∧ (∀ b ∈ s.cbs, b.data = c → b.fn ≠ .changed ∧ b.fn ≠ .observers) ∧
      ∀ d, d ≠ c → c ∉ s.links d
  | _ => True

/-- Histories of applications that mind all this. -/
inductive Reach : St → Prop where
  | init : Reach init
  | step {s s' : St} {op : Op} : Reach s → Own s op → Minded s op → step s op = .ok s' → Reach s'

/-- Everything that is kept about resources is about resources that exist: each
observer has the very resource it registered for, each callback and each link one that
was not freed. -/
structure Sound (s : St) : Prop where
  obs : ∀ o ∈ s.obs, ∃ x, s.heap o.res = some x ∧ x.gen = o.gen
  cbs : ∀ b ∈ s.cbs, ∃ x, s.heap b.data = some x
  links : ∀ c y, s.heap c = some y → ∀ t ∈ s.links c, ∃ x, s.heap t = some x
  lists : ∀ a, Listed s a → ∃ x, s.heap a = some x

/-- What was sent tells the truth: a notification is of the object the observer
registered for. -/
def Truthful (l : List Sent) : Prop := ∀ n e g h, Sent.note n e g h ∈ l → g = h

end Verif.Life
