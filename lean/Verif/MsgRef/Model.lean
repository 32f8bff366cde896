import Verif.Common

/-!
Model of the reference count of a message, api/oc_message.c, used by several threads:
each atomic access is one step and the steps are interleaved in any order.

Simplifications: one message; freeing its buffer and giving it back to the pool is the
single flag `freed`; the pool: see the area Memb.
-/

namespace Verif.MsgRef

/-- A call in progress. `oc_message_add_ref` (api/oc_message.c:182-193) or
`oc_message_unref` (195-227), before the load or with the value it has seen. -/
structure Call where
  add : Bool
  seen : Option Nat
deriving DecidableEq, Repr

/-- The message. `cnt`: `ref_count` (`uint8_t`). `idle`: references held by code that is
not in one of these calls (ghost); `frees`: how often the message was deallocated
(ghost). -/
structure St where
  cnt : Nat
  idle : Nat
  calls : List Call
  frees : Nat
deriving DecidableEq, Repr

/-- `message_allocate_with_size`, api/oc_message.c:90: one reference. -/
def start : St := ⟨1, 1, [], 0⟩

/-- What can happen. -/
inductive Act where
  /-- a thread that holds a reference calls `oc_message_add_ref` -/
  | callAdd
  /-- a thread gives a reference back with `oc_message_unref` -/
  | callUnref
  /-- the call does its next atomic access -/
  | go (i : Nat)
deriving Repr

/-- The next access of a call: the load (189, 202), then compare and swap (191, 207);
if that fails the call goes on with the value found. Accessing a deallocated message
is `ub`. -/
def go (s : St) (i : Nat) (c : Call) : Out St :=
  if s.frees > 0 then .ub
  else match c.seen with
    | none =>
      if c.add = false ∧ s.cnt = 0 then .ok { s with calls := s.calls.eraseIdx i }
      else .ok { s with calls := s.calls.set i { c with seen := some s.cnt } }
    | some v =>
      if v = s.cnt then
        if c.add then .ok { s with cnt := (v + 1) % 256, idle := s.idle + 2, calls := s.calls.eraseIdx i }
        else .ok { s with cnt := v - 1, calls := s.calls.eraseIdx i, frees := if v - 1 = 0 then s.frees + 1 else s.frees }
      else if c.add = false ∧ s.cnt = 0 then .ok { s with calls := s.calls.eraseIdx i }
      else .ok { s with calls := s.calls.set i { c with seen := some s.cnt } }

/-- One step; `none`: not possible. -/
def step (s : St) : Act → Option (Out St)
  | .callAdd => if s.idle > 0 then some (.ok { s with idle := s.idle - 1, calls := s.calls ++ [⟨true, none⟩] }) else none
  | .callUnref => if s.idle > 0 then some (.ok { s with idle := s.idle - 1, calls := s.calls ++ [⟨false, none⟩] }) else none
  | .go i => match s.calls[i]? with
    | none => none
    | some c => some (go s i c)

/-- A schedule. -/
def run (s : St) : List Act → Option (Out St)
  | [] => some (.ok s)
  | a :: l => match step s a with
    | some (.ok t) => run t l
    | x => x

/-- `oc_message_shrink_buffer`, api/oc_message.c:230-247, with the number of bytes of
the message and of its buffer; `mem`: there is memory. -/
def shrink (length size want : Nat) (mem : Bool) : Nat × Nat :=
  if want = size then (length, size)
  else if !mem ∧ want > 0 then (length, size)
  else (min length want, want)

end Verif.MsgRef
