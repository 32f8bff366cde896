import Verif.CloudRd.Model

/-! What the theorems about the directory at the cloud say. -/

namespace Verif.CloudRd

/-- The resources that the device tracks for the cloud. -/
def tracked (s : St) : List Nat := (s.c.pub ++ s.c.published).filterMap (·.res)

/-- What an application wants: a history of additions (with the answer to whether there was
memory) and removals. -/
def wanted (w : List Nat) : Op → List Nat
  | .add r (some _) => if r ∈ w then w else r :: w
  | .remove r => w.filter (· ≠ r)
  | .destroy r => w.filter (· ≠ r)
  | _ => w

/-- The application uses resources as it may: it adds resources that exist, creates them at
free addresses and does not free them behind the back of the cloud client. -/
def Proper (s : St) : Op → Prop
  | .create r _ => s.uri r = none
  | .add r _ => s.uri r ≠ none
  | .freeCollection r => r ∉ tracked s
  | _ => True

/-- A proper history. -/
def ProperRun (env : Env) (s : St) : List Op → Prop
  | [] => True
  | o :: l => Proper s o ∧ ∀ s', step env s o = .ok s' → ProperRun env s' l

/-- The instance ids of all removals sent. -/
def removedIds : List Msg → List Int
  | [] => []
  | .delete l :: r => l ++ removedIds r
  | _ :: r => removedIds r

/-- The instance ids of published resources that the application has removed in this
step. -/
def droppedIds (s : St) : Op → List Int
  | .remove r => if s.c.unowned then [] else ((s.c.published.filter fun l => l.res = some r).map (·.ins))
  | .destroy r => if s.c.unowned then [] else ((s.c.published.filter fun l => l.res = some r).map (·.ins))
  | _ => []

/-- The same for a history. -/
def allDropped (env : Env) (s : St) : List Op → List Int
  | [] => []
  | o :: l => droppedIds s o ++ match step env s o with
    | .ok s' => allDropped env s' l
    | .ub => []

/-! ### A cloud -/

/-- An answer of the cloud. -/
inductive Ans where
  | pub (l : List (Option Bytes × Option Int))
  | del
  deriving DecidableEq, Repr

/-- The directory after a request: the hrefs the cloud lists for the device (without the two
core resources of `publishCore`). A DELETE without instance ids removes all. -/
def applyMsg (insOf : Bytes → Int) (dir : List Bytes) : Msg → List Bytes
  | .publish l => dir ++ l.map (·.1)
  | .publishCore => dir
  | .delete [] => []
  | .delete l => dir.filter fun h => insOf h ∉ l

/-- What the cloud answers. -/
def answer (insOf : Bytes → Int) : Msg → Ans
  | .publish l => .pub (l.map fun x => (some x.1, some (insOf x.1)))
  | .publishCore => .pub []
  | .delete _ => .del

/-- The device, the requests and answers on their way, in order, and the directory. -/
structure Sys where
  st : St
  up : List Msg
  down : List Ans
  dir : List Bytes

/-- The device does something; its requests start their way. -/
def device (env : Env) (x : Sys) (o : Op) : Out Sys :=
  (step env { x.st with sent := [] } o).bind fun s => .ok { x with st := s, up := x.up ++ s.sent }

/-- What can happen when the device is connected and nothing gets lost. -/
inductive Ev where
  | create (r : Nat) (u : Bytes)
  | add (r : Nat) (ins : Int)
  | destroy (r : Nat)
  | publish
  | hourly
  | cloud
  | receive
  deriving DecidableEq, Repr

/-- One event; nothing happens if there is no message to take. -/
def sysStep (env : Env) (insOf : Bytes → Int) (x : Sys) : Ev → Out Sys
  | .create r u => device env x (.create r u)
  | .add r i => device env x (.add r (some i))
  | .destroy r => device env x (.destroy r)
  | .publish => device env x .publish
  | .hourly => device env x .hourly
  | .cloud => match x.up with
    | [] => .ok x
    | m :: up => .ok { x with up := up, dir := applyMsg insOf x.dir m, down := x.down ++ [answer insOf m] }
  | .receive => match x.down with
    | [] => .ok x
    | .pub l :: down => device env { x with down := down } (.pubAnswer true (some l))
    | .del :: down => device env { x with down := down } (.delAnswer false)

/-- A history. -/
def sysRun (env : Env) (insOf : Bytes → Int) (x : Sys) : List Ev → Out Sys
  | [] => .ok x
  | e :: l => (sysStep env insOf x e).bind fun x => sysRun env insOf x l

/-- The restrictions under which the directory becomes right: all URIs are among `U`, addresses and URIs are used by
one resource at a time, a resource is not added while a removal of the same instance id
waits, and not destroyed while its publication is not yet answered. -/
def Calm (U : Bytes → Prop) (insOf : Bytes → Int) (x : Sys) : Ev → Prop
  | .create r u => U u ∧ x.st.uri r = none ∧ ∀ a, x.st.uri a ≠ some u
  | .add r _ => ∃ u, x.st.uri r = some u ∧ ∀ l ∈ x.st.c.del, l.ins ≠ insOf u
  | .destroy r => r ∉ x.st.c.pub.filterMap (·.res)
  | _ => True

/-- A calm history. -/
def CalmRun (U : Bytes → Prop) (env : Env) (insOf : Bytes → Int) (x : Sys) : List Ev → Prop
  | [] => True
  | e :: l => Calm U insOf x e ∧ ∀ x', sysStep env insOf x e = .ok x' → CalmRun U env insOf x' l

/-- A device that has just logged in for the first time, with nothing to publish. -/
def sysInit (unlimited : Bool) : Sys :=
  ⟨⟨⟨[], [], [], true, false, true, false, unlimited, ¬ unlimited⟩, fun _ => none, []⟩, [], [], []⟩

end Verif.CloudRd
