import Verif.Bytes
/-!
Model of the static block pools of `util/oc_memb.c` (`m->num > 0`; the
`calloc`/`free` branch for `num == 0` is the C library's allocator).
Addresses are natural numbers; the pool occupies `num * size` bytes at `base`.
-/
namespace Verif.Memb

/-- The constant part of `struct oc_memb`, util/oc_memb.h:134-141. -/
structure Pool where
  base : Nat
  size : Nat
  num : Nat

/-- Reference counts and memory of the pool, util/oc_memb.h:134-141. -/
structure St where
  count : List Nat
  mem : List UInt8

/-- `sizeof(char *)` of a 64 bit platform, util/oc_memb.c:49. -/
def ptrSize : Nat := 8

/-- `oc_memb_init`, util/oc_memb.c:44-51.  The second `memset` clears
`num * sizeof(char *)` bytes, whatever the block size is. -/
def init (p : Pool) (s : St) : Out St :=
  if p.num > 0 then do
    let c ← writeChk s.count 0 (List.replicate p.num 0)
    let m ← writeChk s.mem 0 (List.replicate (p.num * ptrSize) 0)
    return ⟨c, m⟩
  else .ok s

/-- Loop of `_oc_memb_alloc`, util/oc_memb.c:67-76: index of the first block with
count 0 (or the length), and the counts after `++count[i]`. -/
def allocLoop : List Nat → Nat × List Nat
  | [] => (0, [])
  | c :: r =>
    if c = 0 then (0, 1 :: r)
    else let (i, r') := allocLoop r; (i + 1, c :: r')

/-- `_oc_memb_alloc`, util/oc_memb.c:53-100: returned address, `none` is NULL. -/
def alloc (p : Pool) (s : St) : Out (St × Option Nat) :=
  let (i, count) := allocLoop s.count
  if i < p.num then do
    let mem ← writeChk s.mem (i * p.size) (List.replicate p.size 0)
    return (⟨count, mem⟩, some (p.base + i * p.size))
  else .ok (⟨count, s.mem⟩, none)

/-- Loop of `_oc_memb_free`, util/oc_memb.c:121-133. -/
def freeLoop (size ptr : Nat) : Nat → List Nat → List Nat
  | _, [] => []
  | ptr2, c :: r =>
    if ptr2 = ptr then (if c > 0 then (c - 1) :: r else c :: r)
    else c :: freeLoop size ptr (ptr2 + size) r

/-- `oc_memb_numfree`, util/oc_memb.c:153-163. -/
def numfree : List Nat → Nat
  | [] => 0
  | c :: r => (if c = 0 then 1 else 0) + numfree r

/-- `_oc_memb_free`, util/oc_memb.c:102-144; the second component is the argument
passed to `buffers_avail_cb`. -/
def free (p : Pool) (s : St) (ptr : Nat) : St × Nat :=
  let c := freeLoop p.size ptr p.base s.count
  (⟨c, s.mem⟩, numfree c)

/-- `oc_memb_inmemb`, util/oc_memb.c:146-151. -/
def inmemb (p : Pool) (ptr : Nat) : Bool := p.base ≤ ptr && ptr < p.base + p.num * p.size

/-- A store by the owner of a block: `bs` at offset `off` of the block at `ptr`
(caller code, not part of /repo: any user of a block of util/oc_memb.c). -/
def store (p : Pool) (s : St) (ptr off : Nat) (bs : List UInt8) : Out St := do
  let m ← writeChk s.mem (ptr - p.base + off) bs
  return ⟨s.count, m⟩

end Verif.Memb
