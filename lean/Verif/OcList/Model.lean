import Verif.Common
/-!
Model of the linked list of `util/oc_list.c`.

Items are addresses (`Nat`); the memory is the `next` field of every item.  A
`NULL` pointer is `none`.  Loops over the chain carry a fuel argument: running
out of it is reported as `ub` and stands for a loop that does not terminate
(a cyclic chain).  The theorems hold for every fuel above the list length.
-/
namespace Verif.OcList

/-- The list head together with the `next` field of all items,
util/oc_list.c:41-44 and `oc_list_t`. -/
structure St where
  head : Option Nat
  next : Nat → Option Nat

/-- Assignment to the `next` field of one item (C assignment, used at
util/oc_list.c:81, 87, 94, 106, 107, 127, 137, 155, 156). -/
def St.setNext (s : St) (i : Nat) (v : Option Nat) : St :=
  { s with next := fun j => if j = i then v else s.next j }

/-- `oc_list_init`, util/oc_list.c:46-50. -/
def St.init (s : St) : St := { s with head := none }

/-- Loop of `oc_list_tail`, util/oc_list.c:72-73. -/
def tailLoop (next : Nat → Option Nat) : Nat → Nat → Out Nat
  | 0, _ => .ub
  | f + 1, l => match next l with
    | none => .ok l
    | some n => tailLoop next f n

/-- `oc_list_tail`, util/oc_list.c:64-76. -/
def St.tail (s : St) (fuel : Nat) : Out (Option Nat) :=
  match s.head with
  | none => .ok none
  | some h => do
    let l ← tailLoop s.next fuel h
    return some l

/-- `oc_list_add`, util/oc_list.c:78-89. -/
def St.add (s : St) (fuel : Nat) (item : Nat) : Out St := do
  let s := s.setNext item none
  let l ← s.tail fuel
  match l with
  | none => return { s with head := some item }
  | some l => return s.setNext l (some item)

/-- `oc_list_push`, util/oc_list.c:91-96. -/
def St.push (s : St) (item : Nat) : St :=
  { s.setNext item s.head with head := some item }

/-- `oc_list_insert`, util/oc_list.c:98-108. -/
def St.insert (s : St) (prev : Option Nat) (item : Nat) : St :=
  match prev with
  | none => s.push item
  | some p => (s.setNext item (s.next p)).setNext p (some item)

/-- Loop of `oc_list_chop`, util/oc_list.c:123-124: the last item but one.
Dereferencing a NULL `l->next` is `ub`. -/
def chopLoop (next : Nat → Option Nat) : Nat → Nat → Out Nat
  | 0, _ => .ub
  | f + 1, l => match next l with
    | none => .ub
    | some n => match next n with
      | none => .ok l
      | some _ => chopLoop next f n

/-- `oc_list_chop`, util/oc_list.c:110-129. -/
def St.chop (s : St) (fuel : Nat) : Out (St × Option Nat) :=
  match s.head with
  | none => .ok (s, none)
  | some h => match s.next h with
    | none => .ok ({ s with head := none }, some h)
    | some _ => do
      let l ← chopLoop s.next fuel h
      return (s.setNext l none, s.next l)

/-- `oc_list_pop`, util/oc_list.c:131-141. -/
def St.pop (s : St) : St × Option Nat :=
  match s.head with
  | none => (s, none)
  | some h => ({ s.setNext h none with head := s.next h }, some h)

/-- Loop of `oc_list_remove2`, util/oc_list.c:152-159.  The pointer-to-pointer `l`
is either the head (`none`) or the `next` field of item `p` (`some p`). -/
def removeLoop : Nat → St → Option Nat → Nat → Out (St × Option Nat)
  | 0, _, _, _ => .ub
  | f + 1, s, l, item =>
    let cur := match l with
      | none => s.head
      | some p => s.next p
    match cur with
    | none => .ok (s, none)
    | some c =>
      if c = item then
        let s' := match l with
          | none => { s with head := s.next c }
          | some p => s.setNext p (s.next c)
        .ok (s'.setNext c none, some c)
      else removeLoop f s (some c) item

/-- `oc_list_remove2` (and `oc_list_remove`), util/oc_list.c:143-161. -/
def St.remove (s : St) (fuel : Nat) (item : Nat) : Out (St × Option Nat) :=
  removeLoop fuel s none item

/-- Loop of `oc_list_length`, util/oc_list.c:166-171. -/
def lengthLoop (next : Nat → Option Nat) : Nat → Option Nat → Nat → Out Nat
  | 0, _, _ => .ub
  | _ + 1, none, n => .ok n
  | f + 1, some l, n => lengthLoop next f (next l) (n + 1)

/-- `oc_list_length`, util/oc_list.c:163-172 (`int` counter as `Nat`: a list of
more than `INT_MAX` items is out of scope). -/
def St.length (s : St) (fuel : Nat) : Out Nat := lengthLoop s.next fuel s.head 0

/-- Loop of `oc_list_has_item`, util/oc_list.c:177-182. -/
def hasLoop (next : Nat → Option Nat) (item : Nat) : Nat → Option Nat → Out Bool
  | 0, _ => .ub
  | _ + 1, none => .ok false
  | f + 1, some l => if l = item then .ok true else hasLoop next item f (next l)

/-- `oc_list_has_item`, util/oc_list.c:174-183. -/
def St.has (s : St) (fuel : Nat) (item : Nat) : Out Bool := hasLoop s.next item fuel s.head

end Verif.OcList
