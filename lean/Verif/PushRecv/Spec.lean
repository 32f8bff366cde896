import Verif.PushRecv.Model

/-!
What a user expects of the push receiver resource: a table with one row per receiver.
-/

namespace Verif.PushRecv.Spec

open Verif.Rep (b Bytes Val Rep)
open Verif.Ri (slash ifaceMask)

/-- A receiver and the resource it stands for. -/
structure Item where
  id : Nat
  uri : Bytes
  rts : List Bytes
  types : List Bytes
  ifaces : BitVec 32
  name : Bytes
  disc : Bool
  content : Rep

/-- The rows and the next number. -/
structure Table where
  items : List Item := []
  next : Nat := 0

/-- The value a payload gives to the path of a receiver, the last one. -/
def saidUri (rep : Rep) : Option Bytes :=
  rep.reverse.findSome? fun
    | (n, .str v) => if n = b "receiveruri" then some v else none
    | _ => none

/-- The value a payload gives to the types of a receiver, the last one. -/
def saidRts (rep : Rep) : Option (List Bytes) :=
  rep.reverse.findSome? fun
    | (n, .strs l) => if n = b "rts" then some l else none
    | _ => none

/-- A row for a new receiver: nothing was pushed yet and it cannot be discovered. -/
def blank (id : Nat) (uri : Bytes) (rts : List Bytes) : Item :=
  ⟨id, uri, rts, [b " "], Ri.Iface.rw.bit ||| Ri.Iface.baseline.bit, b "Pushed Resource", false, []⟩

/-- A receiver is added if the payload gives its path and its types. -/
def add (t : Table) (rep : Rep) : Table :=
  match saidUri rep, saidRts rep with
  | some u, some l => ⟨t.items ++ [blank t.next u l], t.next + 1⟩
  | _, _ => t

/-- One receiver is updated, what the payload does not give is kept, or it is added. -/
def postOne (q : Bytes) (rep : Rep) (t : Table) : Table × Ans :=
  if q ∈ t.items.map (·.uri) then
    (⟨t.items.map fun i =>
        if i.uri = q then { i with uri := (saidUri rep).getD i.uri, rts := (saidRts rep).getD i.rts } else i,
      t.next⟩, .changed)
  else if (saidUri rep).isSome ∧ (saidRts rep).isSome then (add t rep, .changed)
  else (t, .bad)

/-- The receivers of a payload that replaces all: a list of objects that hold texts and lists
of texts only, each with a path and types. -/
def Lists (rep : Rep) (l : List Rep) : Prop :=
  (∃ n r, rep = (n, .objs l) :: r) ∧ l ≠ [] ∧
    ∀ o, o ∈ l → (∀ p, p ∈ o → (∃ v, p.2 = .str v) ∨ ∃ w, p.2 = .strs w) ∧
      (saidUri o).isSome ∧ (saidRts o).isSome

/-- The properties every resource has: they are set, not kept with the contents. -/
def isCommon : Bytes × Val → Bool
  | (n, .strs _) => n == b "rt" || n == b "if"
  | (n, .str _) => n == b "n"
  | _ => false

/-- The types a payload says it has. -/
def Typed (rep : Rep) (l : List Bytes) : Prop := (b "rt", Val.strs l) ∈ rep

/-- The last value of a list of texts under a name. -/
def lastStrs (name : Bytes) (rep : Rep) : Option (List Bytes) :=
  rep.reverse.findSome? fun
    | (n, .strs l) => if n = name then some l else none
    | _ => none

/-- The last value of a text under a name. -/
def lastStr (name : Bytes) (rep : Rep) : Option Bytes :=
  rep.reverse.findSome? fun
    | (n, .str l) => if n = name then some l else none
    | _ => none

/-- The interfaces with these names. -/
def ifMask (l : List Bytes) : BitVec 32 := l.foldl (fun m i => m ||| ifaceMask i) 0

/-- A row after an accepted push. -/
def pushed (rep : Rep) (i : Item) : Item :=
  { i with types := (lastStrs (b "rt") rep).getD i.types
           ifaces := ((lastStrs (b "if") rep).map ifMask).getD i.ifaces
           name := (lastStr (b "n") rep).getD i.name
           disc := true
           content := rep.filter fun p => !isCommon p }

/-- A push is accepted if the receiver takes all types, or all types of the payload. -/
def Accepted (rts : List Bytes) (rep : Rep) : Prop :=
  rts = [[]] ∨ ∃ l, Typed rep l ∧ ∀ x, x ∈ l → x ∈ rts

mutual
/-- Values a receiver keeps as they are: no null value, no array without a type, no array of
byte strings, and in arrays of texts empty ones only at the end. -/
def plainVal : Val → Bool
  | .nil => false
  | .int _ => true
  | .dbl _ => true
  | .bool _ => true
  | .bytes _ => true
  | .str _ => true
  | .obj l => plainRep l
  | .arr => false
  | .ints _ => true
  | .dbls _ => true
  | .bools _ => true
  | .bytess _ => false
  | .strs l => l.dropWhile (· ≠ []) |>.all (· = [])
  | .objs l => plainObjs l
/-- All properties hold such values. -/
def plainRep : List (Bytes × Val) → Bool
  | [] => true
  | p :: l => plainProp p && plainRep l
/-- A property holds such a value. -/
def plainProp : Bytes × Val → Bool
  | (_, v) => plainVal v
/-- All objects hold such values. -/
def plainObjs : List (List (Bytes × Val)) → Bool
  | [] => true
  | o :: l => plainRep o && plainObjs l
end

open Classical in
/-- What a request does to the table and what it is answered. -/
noncomputable def step (t : Table) : Op → Table × Ans × Rep
  | .post (some q) rep => ((postOne q rep t).1, (postOne q rep t).2, [])
  | .post none rep =>
    if h : ∃ l, Lists rep l then (h.choose.foldl add ⟨[], t.next⟩, .changed, []) else (t, .bad, [])
  | .delete (some q) =>
    if q ∈ t.items.map (·.uri) then (⟨t.items.filter fun i => i.uri ≠ q, t.next⟩, .deleted, [])
    else (t, .notFound, [])
  | .delete none => (⟨[], t.next⟩, .deleted, [])
  | .push u rep =>
    match t.items.find? fun i => i.uri = u with
    | none => (t, .notFound, [])
    | some i =>
      if Accepted i.rts rep then (⟨t.items.map fun j => if j.uri = u then pushed rep j else j, t.next⟩, .changed, [])
      else (t, .forbidden, [])
  | .get u =>
    match t.items.find? fun i => i.uri = u with
    | none => (t, .notFound, [])
    | some i => if i.content.isEmpty then (t, .notFound, []) else (t, .ok, i.content)

/-- A history, with the answers. -/
noncomputable def run (t : Table) : List Op → Table × List (Ans × Rep)
  | [] => (t, [])
  | o :: os => ((run (step t o).1 os).1, (step t o).2 :: (run (step t o).1 os).2)

/-- Empty texts only at the end. -/
def Tidy (l : List Bytes) : Prop := ∃ a k, l = a ++ List.replicate k [] ∧ ∀ x, x ∈ a → x ≠ []

/-- A payload for one receiver: texts and lists of texts only, every path it gives is `v`. -/
def Clean (v : Bytes) (rep : Rep) : Prop :=
  ∀ n x, (n, x) ∈ rep →
    (∃ s, x = .str s ∧ (n = b "receiveruri" → s = v)) ∨ ∃ l, x = .strs l ∧ Tidy l

/-- The paths that receivers may have: with one slash at the start, none the beginning of
another, none in use by the device. -/
structure Paths (U : Bytes → Prop) (taken : Bytes → Bool) (app : List Rs) : Prop where
  shape : ∀ u, U u → ∃ c r, u = slash :: c :: r ∧ c ≠ slash
  free : ∀ u v, U u → U v → u <+: v → u = v
  core : ∀ u, U u → taken u = false
  own : ∀ a, a ∈ app → ¬ U a.uri ∧ a.uri ≠ [] ∧ a.uri.head? = some slash

/-- The requests for which a receiver is as expected. -/
def Fits (U : Bytes → Prop) (t : Table) : Op → Prop
  | .post (some q) rep =>
    U q ∧ ∃ v, U v ∧ Clean v rep ∧ (v = q ∨ q ∈ t.items.map (·.uri) ∧ v ∉ t.items.map (·.uri))
  | .post none rep =>
    ∀ l, Lists rep l → ∃ vs : List Bytes, vs.Nodup ∧ (∀ v, v ∈ vs → U v) ∧ vs.length = l.length ∧
      ∀ v o, (v, o) ∈ vs.zip l → Clean v o
  | .delete (some q) => U q
  | .delete none => True
  | .push u rep =>
    U u ∧ (∀ l l', Typed rep l → Typed rep l' → l = l') ∧ (∀ l, Typed rep l → Tidy l) ∧
      plainRep (rep.filter fun p => !isCommon p) = true ∧ (rep.filter fun p => !isCommon p) ≠ []
  | .get u => U u

/-- A history of such requests. -/
def FitsRun (U : Bytes → Prop) (t : Table) : List Op → Prop
  | [] => True
  | o :: os => Fits U t o ∧ FitsRun U (step t o).1 os

end Verif.PushRecv.Spec
