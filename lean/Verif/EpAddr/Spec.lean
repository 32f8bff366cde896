import Verif.EpAddr.Model
/-!
What a list of servers with a selected server is: a list and a position.
-/
namespace Verif.EpAddr

/-- A server: its uri and what is known about it. -/
abbrev Server := Bytes × Meta

/-- The servers in the order they were added, and the position of the selected one
(0 without servers). -/
structure Servers where
  all : List Server
  cur : Nat
  deriving DecidableEq, Repr

/-- The uri of a server is acceptable. -/
def Fits (lim : Nat) (u : Bytes) : Prop := 0 < u.length ∧ u.length < lim

instance (lim : Nat) (u : Bytes) : Decidable (Fits lim u) := inferInstanceAs (Decidable (_ ∧ _))

/-- Every call as a change of the servers.  Positions stand for the items given by
pointers; `none` is an item of another list.  `m` tells whether there is memory. -/
inductive Change where
  | restart (m : Bool) (s : Server)
  | drop
  | add (m : Bool) (s : Server)
  | remove (k : Option Nat)
  | select (k : Option Nat)
  | next

/-- The servers of the list of the code: the position of the selected item. -/
def servers (s : Addrs) : Servers :=
  ⟨s.items.map fun i => (i.uri, i.tag),
    match s.sel with | none => 0 | some p => s.items.findIdx fun i => i.id == p⟩

/-- The positions `k` with an item that satisfies `f` and is the first such;
`none` if there is no such item. -/
def First (f : Item → Prop) (l : List Item) : Option Nat → Prop
  | none => ∀ i ∈ l, ¬ f i
  | some k => ∃ i, l[k]? = some i ∧ f i ∧ ∀ j < k, ∀ i, l[j]? = some i → ¬ f i

/-- What a call means.  The call removing an item that is no longer in the list has
no meaning. -/
def Means (s : Addrs) : Op → Change → Prop
  | .init m d, c | .reinit m d, c => c = .restart m (d.uri, d.tag)
  | .deinit, c | .clear, c => c = .drop
  | .add m v, c => c = .add m (v.uri, v.tag)
  | .remove .other, c => c = .remove none
  | .remove (.mine p), c => ∃ k, First (·.id = p) s.items (some k) ∧ c = .remove (some k)
  | .removeByUri u, c => ∃ k, First (·.uri = u) s.items k ∧ c = .remove k
  | .select .other, c => c = .select none
  | .select (.mine p), c => ∃ k, First (·.id = p) s.items k ∧ c = .select k
  | .selectByUri u, c => ∃ k, First (·.uri = u) s.items k ∧ c = .select k
  | .selectNext, c => c = .next

/-- Adding a server: its uri must fit and be new. -/
def Adds (lim : Nat) (m : Bool) (s : Server) (a : List Server) (ok : Bool) (a' : List Server) : Prop :=
  if m = true ∧ Fits lim s.1 ∧ s.1 ∉ a.map (·.1) then ok = true ∧ a' = a ++ [s]
  else ok = false ∧ a' = a

/-- What a change does: the success and the servers after it. -/
def Does (lim : Nat) (x : Servers) (c : Change) (ok : Bool) (y : Servers) : Prop :=
  match c with
  | .restart m s =>
    y.cur = 0 ∧ (if s.1 = [] then ok = true ∧ y.all = [] else Adds lim m s [] ok y.all)
  | .drop => ok = true ∧ y.all = [] ∧ y.cur = 0
  | .add m s => Adds lim m s x.all ok y.all ∧ y.cur = x.cur
  | .remove none => ok = false ∧ y = x
  | .remove (some k) =>
    ok = true ∧ y.all = x.all.eraseIdx k ∧
    y.cur = if k < x.cur then x.cur - 1
            else if x.cur < k then x.cur
            else if k + 1 < x.all.length then k else 0
  | .select none => ok = false ∧ y = x
  | .select (some k) => ok = true ∧ y.all = x.all ∧ y.cur = k
  | .next => y.all = x.all ∧ y.cur = (if x.all = [] then x.cur else (x.cur + 1) % x.all.length) ∧
      ok = decide (1 < x.all.length)

end Verif.EpAddr
