import Verif.Bytes
/-!
Model of the compacting pools of `util/oc_mmem.c` (static allocation).  The three
pools (bytes, ints, doubles) run the same code on arrays of different element
types; the model is generic in the element type and counts elements (the C code
multiplies the element count by `type_size` for `memmove`).  The linked list of
handles is represented by the sequence of C07.
-/
namespace Verif.Mmem

/-- `struct oc_mmem`: `id` is the address of the handle, `ptr` the index of the
first element in the pool.  util/oc_mmem.h `struct oc_mmem`. -/
structure Blk where
  id : Nat
  ptr : Nat
  size : Nat
  deriving Repr, DecidableEq

/-- Pool memory, `g_mmem_avail_*` and the handle list, util/oc_mmem.c:60-70. -/
structure St (α : Type) where
  mem : List α
  avail : Nat
  blocks : List Blk

/-- `_oc_mmem_alloc` for one pool of `N` elements, util/oc_mmem.c:105-135, 143.
Second component: whether a block was allocated (the C return value is the size
in bytes, so a request of size 0 returns 0 although the handle is linked). -/
def alloc {α : Type} (N : Nat) (s : St α) (id size : Nat) : St α × Bool :=
  if s.avail < size then (s, false)
  else
    ({ s with avail := s.avail - size, blocks := s.blocks ++ [⟨id, N - s.avail, size⟩] }, true)

/-- The handle and its successors in the list, following `m->next`
(util/oc_mmem.c:170, 192); `none` if the handle is not in the list. -/
def fromHandle (id : Nat) : List Blk → Option (Blk × List Blk)
  | [] => none
  | b :: r => if b.id = id then some (b, r) else fromHandle id r

/-- Loop of `_oc_mmem_free`, util/oc_mmem.c:192-205, and the list removal
(util/oc_mmem.c:211): blocks behind the freed one move down. -/
def shiftAfter (m : Blk) : List Blk → List Blk
  | [] => []
  | b :: r =>
    if b.id = m.id then r.map fun n => { n with ptr := n.ptr - m.size }
    else b :: shiftAfter m r

/-- `_oc_mmem_free`, util/oc_mmem.c:146-227 (static).  A handle that is not in the
list is `ub`: its fields are indeterminate or stale. -/
def free {α : Type} (N : Nat) (s : St α) (id : Nat) : Out (St α) :=
  match fromHandle id s.blocks with
  | none => .ub
  | some (m, []) =>
    .ok { s with avail := s.avail + m.size, blocks := shiftAfter m s.blocks }
  | some (m, n :: _) => do
    let src ← sliceChk s.mem n.ptr (N - s.avail - n.ptr)
    let mem ← writeChk s.mem m.ptr src
    return { mem := mem, avail := s.avail + m.size, blocks := shiftAfter m s.blocks }

/-- A store by the owner through `m->ptr` (caller code; e.g. util/oc_mmem.h
`OC_MMEM_PTR` users): `xs` at offset `off` of the block. -/
def store {α : Type} (s : St α) (id off : Nat) (xs : List α) : Out (St α) :=
  match fromHandle id s.blocks with
  | none => .ub
  | some (m, _) => do
    let mem ← writeChk s.mem (m.ptr + off) xs
    return { s with mem := mem }

/-- `oc_mmem_available_size`, util/oc_mmem.c:231-244. -/
def available {α : Type} (s : St α) : Nat := s.avail

/-- State before any call, util/oc_mmem.c:60-70. -/
def init {α : Type} (zero : α) (N : Nat) : St α := ⟨List.replicate N zero, N, []⟩

end Verif.Mmem
