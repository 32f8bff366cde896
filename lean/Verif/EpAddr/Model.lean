import Verif.Common
/-!
Model of the list of server addresses: `util/oc_endpoint_address.c`.

An item is identified by a number, one per allocation.  The callback for a changed
selection (in the library only those of the cloud and of the provisioning service,
which do not touch the list) is modelled by counting its calls.
-/
namespace Verif.EpAddr

/-- Byte strings (modelling convention). -/
abbrev Bytes := List UInt8

/-- `oc_endpoint_address_metadata_t`, util/oc_endpoint_address_internal.h:41-60: a
UUID or a name; the name `none` is the zeroed string. -/
inductive Meta where
  | uuid (u : Bytes)
  | name (n : Option Bytes)
  deriving DecidableEq, Repr

/-- `oc_endpoint_address_t`, util/oc_endpoint_address_internal.h: an item. -/
structure Item where
  id : Nat
  uri : Bytes
  tag : Meta
  deriving DecidableEq, Repr

/-- `oc_endpoint_addresses_t`, util/oc_endpoint_address_internal.h:109-116: the list
and the selected item.  `next` numbers the allocations and `calls` counts the calls
of `on_selected_change`; neither is in the code. -/
structure Addrs where
  items : List Item := []
  sel : Option Nat := none
  next : Nat := 0
  calls : Nat := 0
  deriving DecidableEq, Repr

/-- A view of an address, `oc_endpoint_address_view_t`. -/
structure View where
  uri : Bytes
  tag : Meta
  deriving DecidableEq, Repr

/-- `endpoint_address_is_valid`, util/oc_endpoint_address.c:129-133; `lim` is
`OC_ENDPOINT_MAX_ENDPOINT_URI_LENGTH`. -/
def valid (lim : Nat) (u : Bytes) : Bool := decide (0 < u.length) && decide (u.length < lim)

/-- `endpoint_address_select`, util/oc_endpoint_address.c:135-147. -/
def select' (s : Addrs) (p : Option Nat) : Bool × Addrs :=
  if s.sel = p then (false, s) else (true, { s with sel := p, calls := s.calls + 1 })

/-- `endpoint_address_allocate_and_add`, util/oc_endpoint_address.c:167-201; `mem`
tells whether all allocations succeed.  The result is the new item.  The failing
assertion of line 195 is undefined behaviour here. -/
def allocAdd (lim : Nat) (mem : Bool) (s : Addrs) (v : View) : Out (Option Nat × Addrs) :=
  if ¬ valid lim v.uri then .ok (none, s)
  else if ¬ mem then .ok (none, s)
  else if s.sel = none ∧ s.items ≠ [] then .ub
  else
    let s1 := if s.sel = none then (select' s (some s.next)).2 else s
    .ok (some s.next, { s1 with items := s1.items ++ [⟨s.next, v.uri, v.tag⟩], next := s.next + 1 })

/-- `oc_endpoint_addresses_init`, util/oc_endpoint_address.c:203-227: everything is
zeroed first; `none` or an empty uri is no default address. -/
def init (lim : Nat) (mem : Bool) (s : Addrs) (d : View) : Out (Bool × Addrs) :=
  let s0 := { s with items := [], sel := none }
  if d.uri.length > 0 then
    (allocAdd lim mem s0 d).bind fun r => .ok (r.1.isSome, r.2)
  else .ok (true, s0)

/-- `oc_endpoint_addresses_deinit`, util/oc_endpoint_address.c:238-250: no callback
is called. -/
def deinit (s : Addrs) : Addrs := { s with items := [], sel := none }

/-- `oc_endpoint_addresses_reinit`, util/oc_endpoint_address.c:252-260. -/
def reinit (lim : Nat) (mem : Bool) (s : Addrs) (d : View) : Out (Bool × Addrs) :=
  init lim mem (deinit s) d

/-- `oc_endpoint_addresses_contains`, util/oc_endpoint_address.c:289-305. -/
def contains (s : Addrs) (u : Bytes) : Bool := s.items.any fun i => i.uri == u

/-- `oc_endpoint_addresses_add`, util/oc_endpoint_address.c:307-322. -/
def add (lim : Nat) (mem : Bool) (s : Addrs) (v : View) : Out (Option Nat × Addrs) :=
  if ¬ valid lim v.uri then .ok (none, s)
  else if contains s v.uri then .ok (none, s)
  else allocAdd lim mem s v

/-- The item behind item `p`, `ea->next`; undefined if `p` is no item of the list:
it has been freed. -/
def nextOf (p : Nat) : List Item → Out (Option Nat)
  | [] => .ub
  | i :: l => if i.id = p then .ok (l.head?.map (·.id)) else nextOf p l

/-- `endpoint_address_next`, util/oc_endpoint_address.c:324-332. -/
def orHead (s : Addrs) (n : Option Nat) : Option Nat :=
  match n with
  | some n => some n
  | none => s.items.head?.map (·.id)

/-- A pointer given by the application: to an item allocated for this list, or to a
live item that is not in this list. -/
inductive Ptr where
  | mine (id : Nat)
  | other
  deriving DecidableEq, Repr

/-- `oc_endpoint_addresses_remove`, util/oc_endpoint_address.c:334-349.  Reading
`ea->next` of an item that was freed is undefined. -/
def remove (s : Addrs) (p : Ptr) : Out (Bool × Addrs) :=
  match p with
  | .other => .ok (false, s)
  | .mine p =>
    (nextOf p s.items).bind fun n =>
    let s1 := { s with items := s.items.filter fun i => i.id != p }
    .ok (true, if s.sel = some p then (select' s1 (orHead s1 n)).2 else s1)

/-- `oc_endpoint_addresses_find`, util/oc_endpoint_address.c:397-418. -/
def find (s : Addrs) (u : Bytes) : Option Nat := (s.items.find? fun i => i.uri == u).map (·.id)

/-- `oc_endpoint_addresses_remove_by_uri`, util/oc_endpoint_address.c:351-360. -/
def removeByUri (s : Addrs) (u : Bytes) : Out (Bool × Addrs) :=
  match find s u with
  | none => .ok (false, s)
  | some p => remove s (.mine p)

/-- `oc_endpoint_addresses_clear`, util/oc_endpoint_address.c:362-371. -/
def clear (s : Addrs) : Addrs := (select' { s with items := [] } none).2

/-- `oc_endpoint_addresses_select`, util/oc_endpoint_address.c:420-429.  Only the
pointer is compared; simplification: a pointer to a freed item is not taken for a
later item that got the same memory. -/
def select (s : Addrs) (p : Ptr) : Bool × Addrs :=
  match p with
  | .other => (false, s)
  | .mine p => if s.items.any (fun i => i.id == p) then (true, (select' s (some p)).2) else (false, s)

/-- `oc_endpoint_addresses_select_by_uri`, util/oc_endpoint_address.c:431-441. -/
def selectByUri (s : Addrs) (u : Bytes) : Bool × Addrs :=
  match find s u with
  | none => (false, s)
  | some p => (true, (select' s (some p)).2)

/-- `oc_endpoint_addresses_select_next`, util/oc_endpoint_address.c:443-451. -/
def selectNext (s : Addrs) : Out (Bool × Addrs) :=
  match s.sel with
  | none => .ok (false, s)
  | some p => (nextOf p s.items).bind fun n => .ok (select' s (orHead s n))

/-- The selected item, `oc_endpoint_addresses_selected`,
util/oc_endpoint_address.c:461-465: following the pointer is undefined if it is
not NULL and the item is not in the list. -/
def selected (s : Addrs) : Out (Option Item) :=
  match s.sel with
  | none => .ok none
  | some p =>
    match s.items.find? fun i => i.id == p with
    | none => .ub
    | some i => .ok (some i)

/-- `oc_endpoint_addresses_is_selected`, util/oc_endpoint_address.c:453-459. -/
def isSelected (s : Addrs) (u : Bytes) : Out Bool :=
  (selected s).bind fun r =>
  match r with
  | none => .ok false
  | some i => .ok (decide (i.uri = u))

/-- A call of one of the functions above that change the list. -/
inductive Op where
  | init (mem : Bool) (d : View)
  | deinit
  | reinit (mem : Bool) (d : View)
  | add (mem : Bool) (v : View)
  | remove (p : Ptr)
  | removeByUri (u : Bytes)
  | clear
  | select (p : Ptr)
  | selectByUri (u : Bytes)
  | selectNext
  deriving DecidableEq, Repr

/-- The call of `op`; the result tells success (`true` where the function returns
nothing). -/
def step (lim : Nat) (s : Addrs) : Op → Out (Bool × Addrs)
  | .init m d => init lim m s d
  | .deinit => .ok (true, deinit s)
  | .reinit m d => reinit lim m s d
  | .add m v => (add lim m s v).bind fun r => .ok (r.1.isSome, r.2)
  | .remove p => remove s p
  | .removeByUri u => removeByUri s u
  | .clear => .ok (true, clear s)
  | .select p => .ok (select s p)
  | .selectByUri u => .ok (selectByUri s u)
  | .selectNext => selectNext s

/-- A history of calls (modelling convention): it ends with the first undefined
call. -/
def run (lim : Nat) (s : Addrs) : List Op → Out Addrs
  | [] => .ok s
  | o :: os => (step lim s o).bind fun r => run lim r.2 os

end Verif.EpAddr
