import Verif.Bytes
/-!
Model of the event queue of `util/oc_process.c`: a ring buffer with a first index
and a number of events.  `oc_process_num_events_t` is modelled by `Nat` (unsigned
long in the dynamic build; in the static build the values stay below 20).
-/
namespace Verif.Process

/-- `struct event_data`, util/oc_process.c:66-71.  `p = none` is
`OC_PROCESS_BROADCAST` (NULL). -/
structure Ev where
  p : Option Nat
  ev : Nat
  data : Nat
  deriving Repr, DecidableEq

/-- `g_events` (its length is `OC_PROCESS_NUMEVENTS`), `g_nevents`, `g_fevent`,
util/oc_process.c:73-85. -/
structure Q where
  buf : List Ev
  n : Nat
  f : Nat
  deriving Repr, DecidableEq

/-- All-zero element written by `memset`/`calloc`, util/oc_process.c:252, 465. -/
def zeroEv : Ev := ⟨none, 0, 0⟩

/-- `oc_process_init`, util/oc_process.c:248-263, with a queue of `cap` elements
(10 in both builds, util/oc_process.c:73-77). -/
def init (cap : Nat) : Q := ⟨List.replicate cap zeroEv, 0, 0⟩

/-- Loop of `oc_process_post`, util/oc_process.c:459-467; `k` is the number of
iterations left (`OC_PROCESS_NUMEVENTS - n - i`), `nn = g_nevents`,
`dst = OC_PROCESS_NUMEVENTS - n`. -/
def growLoop (nn dst : Nat) : Nat → Nat → Nat → List Ev → Out (List Ev)
  | 0, _, _, buf => .ok buf
  | k + 1, i, j, buf =>
    if i < nn then do
      let e ← sliceChk buf i 1
      let buf ← writeChk buf (dst + j) e
      let buf ← writeChk buf i [zeroEv]
      growLoop nn dst k (i + 1) (j + 1) buf
    else do
      let buf ← writeChk buf i [zeroEv]
      growLoop nn dst k (i + 1) j buf

/-- Growth in the dynamic build, util/oc_process.c:449-468.  `junk` is the
uninitialised tail of the reallocated array. -/
def grow (q : Q) (junk : List Ev) : Out Q := do
  let cap := q.buf.length * 2
  let n := q.n - q.f
  let buf ← growLoop q.n (cap - n) (cap - n - q.f) q.f 0 (q.buf ++ junk)
  return ⟨buf, q.n, cap - n⟩

/-- Append behind the last event, util/oc_process.c:474-478. -/
def append (q : Q) (e : Ev) : Out Q := do
  let buf ← writeChk q.buf ((q.f + q.n) % q.buf.length) [e]
  return ⟨buf, q.n + 1, q.f⟩

/-- `oc_process_post`, util/oc_process.c:441-481.  `dyn` selects the build with
dynamic allocation; the result is false for `OC_PROCESS_ERR_FULL`.  Abort on
allocation failure is not modelled. -/
def post (dyn : Bool) (q : Q) (e : Ev) (junk : List Ev) : Out (Q × Bool) :=
  if q.n = q.buf.length then
    if dyn then do
      let q ← grow q junk
      let q ← append q e
      return (q, true)
    else .ok (q, false)
  else do
    let q ← append q e
    return (q, true)

/-- Event taken from the queue by `do_event`, util/oc_process.c:305-317. -/
def take (q : Q) : Out (Q × Option Ev) :=
  if q.n = 0 then .ok (q, none)
  else do
    let e ← Out.get q.buf q.f
    return (⟨q.buf, q.n - 1, (q.f + 1) % q.buf.length⟩, some e)

/-- Removal of the event at queue position `i`, util/oc_process.c:411-412, 419-435. -/
def dropAt (q : Q) (i : Nat) : Out Q :=
  let cap := q.buf.length
  let index := (q.f + i) % cap
  if q.n > 1 then
    let last := (q.f + q.n - 1) % cap
    if last ≥ index then do
      let src ← sliceChk q.buf (index + 1) (last - index)
      let buf ← writeChk q.buf index src
      return ⟨buf, q.n - 1, q.f⟩
    else do
      let src ← sliceChk q.buf (index + 1) (cap - 1 - index)
      let buf ← writeChk q.buf index src
      let e ← sliceChk buf 0 1
      let buf ← writeChk buf (cap - 1) e
      let src ← sliceChk buf 1 last
      let buf ← writeChk buf 0 src
      return ⟨buf, q.n - 1, q.f⟩
  else .ok ⟨q.buf, q.n - 1, q.f⟩

/-- Loop of `oc_process_drop`, util/oc_process.c:410-437.  `match_` is the test of
line 413 negated (`event->p == p && drop_event(...)`).  The fuel bounds the number
of iterations by the initial number of events. -/
def dropLoop (match_ : Ev → Bool) : Nat → Q → Nat → Nat → Out (Q × Nat)
  | 0, q, _, d => .ok (q, d)
  | k + 1, q, i, d =>
    if i < q.n then do
      let e ← Out.get q.buf ((q.f + i) % q.buf.length)
      if match_ e then do
        let q ← dropAt q i
        dropLoop match_ k q i (d + 1)
      else dropLoop match_ k q (i + 1) d
    else .ok (q, d)

/-- `oc_process_drop`, util/oc_process.c:399-439 (with non-NULL arguments). -/
def drop (q : Q) (p : Nat) (dropEvent : Nat → Nat → Bool) : Out (Q × Nat) :=
  dropLoop (fun e => e.p == some p && dropEvent e.ev e.data) q.n q 0 0

/-- `oc_process_iterate_events`, util/oc_process.c:387-397, with a callback that
returns true: the events visited. -/
def iterate (q : Q) : List (Option Ev) :=
  (List.range q.n).map fun i => q.buf[(q.f + i) % q.buf.length]?

end Verif.Process
