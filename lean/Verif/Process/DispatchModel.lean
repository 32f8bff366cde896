import Verif.Process.Model
/-!
# The scheduler of `util/oc_process.c`

Processes, events and polls: starting and exiting processes, delivering events, and the requests to be
polled, which also arrive from other threads.  The threads of processes are arbitrary: whenever one runs,
the history says what it does next.  The C call stack is explicit, so that threads can start, exit and
call one another at any depth.

Simplified: the event queue is the sequence `Verif.Process` proves it to implement, in the dynamic build
(it never refuses); a process always has a thread (`OC_PROCESS`, `util/oc_process.h` 306-314);
`OC_TEST` (suspended processes) is left out; threads do not call `oc_process_run` (its loop variables are
static, `util/oc_process.c` 292-295).
-/
namespace Verif.Process.Dispatch

/-- A process. -/
abbrev Pid := Nat

/-- `OC_PROCESS_STATE_NONE`, `_RUNNING` and `_CALLED`, `util/oc_process.c` 96-98. -/
inductive PSt | none | running | called
  deriving DecidableEq, Repr

/-- `OC_PROCESS_EVENT_INIT`, `util/oc_process.h` 91. -/
def evInit : Nat := 0x81
/-- `OC_PROCESS_EVENT_POLL`, `util/oc_process.h` 92. -/
def evPoll : Nat := 0x82
/-- `OC_PROCESS_EVENT_EXIT`, `util/oc_process.h` 93. -/
def evExit : Nat := 0x83
/-- `OC_PROCESS_EVENT_EXITED`, `util/oc_process.h` 97. -/
def evExited : Nat := 0x87

/-- Where `exit_process` is: in the loop over the processes at one of them, after the call for one, before
the call of the exiting process itself, before it is taken off the list; `util/oc_process.c` 171-197. -/
inductive Stage
  | at (q : Option Pid)
  | after (q : Pid)
  | self
  | unlink
  deriving DecidableEq, Repr

/-- A frame of the C stack above `oc_process_run`: `call_process` at its entry, a thread run by it, a
thread run by `exit_process` (`util/oc_process.c` 180), `exit_process` for `p` called from `from` with
the current process `cur` to restore (197), and the end of `oc_process_post_synch` (490). -/
inductive Fr
  | call (p : Pid) (ev data : Nat)
  | thread (p : Pid) (ev data : Nat)
  | exitThread (p : Pid)
  | exiting (p : Pid) (from_ : Option Pid) (cur : Option Pid) (st : Stage)
  | restore (cur : Option Pid)
  deriving DecidableEq, Repr

/-- What `do_event` does after the polls it makes during a broadcast, `util/oc_process.c` 321-330; for the
polls of `oc_process_run`, `do_event` itself (354). -/
inductive After
  | event
  | bcast (q : Pid) (ev data : Nat)
  deriving DecidableEq, Repr

/-- Where `oc_process_run` is (`util/oc_process.c` 345-357): not running; before `do_event`; in the loop of
`do_poll` (274-282) at a process or after one; in the loop of `do_event` over a broadcast (321-330). -/
inductive Base
  | idle
  | event
  | sweep (q : Option Pid) (k : After)
  | sweepNext (q : Pid) (k : After)
  | bcast (q : Option Pid) (ev data : Nat)
  | bcastNext (q : Pid) (ev data : Nat)
  deriving DecidableEq, Repr

/-- The scheduler.  `list` is the chain of processes from `oc_process_list` on; `old p` is the `next`
pointer of a process that is not on it, as it was when it was taken off (`util/oc_process.c` 186-195 do
not clear it).  `pend0`, `pend1` are calls of `oc_process_poll` in other threads that have read the state
and that have set `needspoll` (`util/oc_process.c` 493-503).

Ghosts, not in the code: `log` the threads called, `posted` and `taken` the events posted and taken by
`do_event`, `req` the processes on the list asked to be polled and not polled since, `due` those of them at
the beginning of the last sweep not polled since. -/
structure St where
  list : List Pid := []
  old : Pid → Option Pid := fun _ => none
  state : Pid → PSt := fun _ => .none
  needs : Pid → Bool := fun _ => false
  gpoll : Bool := false
  queue : List Ev := []
  cur : Option Pid := none
  base : Base := .idle
  up : List Fr := []
  pend0 : List Pid := []
  pend1 : List Pid := []
  log : List (Pid × Nat × Nat) := []
  posted : List Ev := []
  taken : List Ev := []
  req : List Pid := []
  due : List Pid := []

/-- Assignment to one element. -/
def upd {α : Type} (f : Pid → α) (p : Pid) (v : α) : Pid → α := fun q => if q = p then v else f q

/-- The successor in a chain (`next` in `struct oc_process`, `util/oc_process.h` 318-320). -/
def succ : List Pid → Pid → Option Pid
  | [], _ => none
  | a :: l, p => if a = p then l.head? else succ l p

/-- `p->next`, `util/oc_process.h` 318-320. -/
def St.next (s : St) (p : Pid) : Option Pid := if p ∈ s.list then succ s.list p else s.old p

/-- `exit_process`, `util/oc_process.c` 137-198, up to its first call. -/
def exitEnter (p : Pid) (from_ : Option Pid) (s : St) : St :=
  if p ∉ s.list then s
  else if s.state p = .none then { s with up := .exiting p from_ s.cur .unlink :: s.up }
  else { s with state := upd s.state p .none
                up := .exiting p from_ s.cur (.at s.list.head?) :: s.up }

/-- `do_poll`, `util/oc_process.c` 269-274. -/
def sweepStart (k : After) (s : St) : St :=
  { s with gpoll := false, base := .sweep s.list.head? k, due := s.req }

/-- `oc_process_run`, `util/oc_process.c` 345-351. -/
def runStart (s : St) : St :=
  if s.gpoll then sweepStart .event s else { s with base := .event }

/-- Take a process off the chain, `util/oc_process.c` 186-195. -/
def unlink (p : Pid) (s : St) : St :=
  { s with list := s.list.erase p
           old := if p ∈ s.list then upd s.old p (succ s.list p) else s.old
           req := s.req.filter (· ≠ p)
           due := s.due.filter (· ≠ p) }

/-- The next step of a frame on top of the stack, below it `k` (`call_process` `util/oc_process.c` 200-232,
`exit_process` 137-198); threads wait for an action. -/
def tickFr (s : St) : Fr → List Fr → St
  | .call p ev d, k =>
    -- util/oc_process.c:200-224
    if s.state p = .running then
      { s with state := upd s.state p .called, cur := some p, up := .thread p ev d :: k
               log := s.log ++ [(p, ev, d)] }
    else { s with up := k }
  | .thread _ _ _, _ => s
  | .exitThread _, _ => s
  | .exiting p f c st, k =>
    match st with
    | .at none => { s with up := .exiting p f c .self :: k }
    | .at (some q) =>
      if q = p then { s with up := .exiting p f c (.after q) :: k }
      else { s with up := .call q evExited p :: .exiting p f c (.after q) :: k }
    | .after q => { s with up := .exiting p f c (.at (s.next q)) :: k }
    | .self =>
      if some p ≠ f then
        { s with cur := some p, up := .exitThread p :: .exiting p f c .unlink :: k
                 log := s.log ++ [(p, evExit, 0)] }
      else { s with up := .exiting p f c .unlink :: k }
    | .unlink => { unlink p s with cur := c, up := k }
  | .restore c, k => { s with cur := c, up := k }

/-- The next step of `oc_process_run` when no call is active, `util/oc_process.c` 269-357. -/
def tickBase (s : St) : St :=
  match s.base with
  | .idle => s
  | .event =>
    -- do_event, util/oc_process.c:289-343
    match s.queue with
    | [] => { s with base := .idle }
    | e :: q =>
      let s := { s with queue := q, taken := s.taken ++ [e] }
      match e.p with
      | none => { s with base := .bcast s.list.head? e.ev e.data }
      | some r =>
        { s with state := if e.ev = evInit then upd s.state r .running else s.state
                 base := .idle, up := [.call r e.ev e.data] }
  | .sweep none .event => { s with base := .event }
  | .sweep none (.bcast q ev d) => { s with base := .bcastNext q ev d, up := [.call q ev d] }
  | .sweep (some q) k =>
    if s.needs q then
      { s with needs := upd s.needs q false, state := upd s.state q .running
               base := .sweepNext q k, up := [.call q evPoll 0]
               req := s.req.filter (· ≠ q), due := s.due.filter (· ≠ q) }
    else { s with base := .sweepNext q k }
  | .sweepNext q k => { s with base := .sweep (s.next q) k }
  | .bcast none _ _ => { s with base := .idle }
  | .bcast (some q) ev d =>
    if s.gpoll then sweepStart (.bcast q ev d) s
    else { s with base := .bcastNext q ev d, up := [.call q ev d] }
  | .bcastNext q ev d => { s with base := .bcast (s.next q) ev d }

/-- What a running thread, or the program between two calls of `oc_process_run`, can do: the functions of
`util/oc_process.c` at the lines given, `ret` of a thread (true for `PT_EXITED` and `PT_ENDED`), and `run`. -/
inductive Act
  | post (e : Ev)
  | sync (p : Pid) (ev data : Nat)
  | poll (p : Pid)
  | exit (p : Pid)
  | start (p : Pid) (data : Nat)
  | ret (ended : Bool)
  | run
  deriving DecidableEq, Repr

/-- The end of a thread called by `call_process` (`util/oc_process.c` 224-231) or by `exit_process`. -/
def ret (ended : Bool) (s : St) : St :=
  match s.up with
  | .thread p ev _ :: k =>
    if ended = true ∨ ev = evExit then exitEnter p (some p) { s with up := k }
    else { s with state := upd s.state p .running, up := k }
  | .exitThread _ :: k => { s with up := k }
  | _ => s

/-- `oc_process_poll`, `util/oc_process.c` 493-503, without interference. -/
def poll (p : Pid) (s : St) : St :=
  if s.state p = .none then s
  else { s with needs := upd s.needs p true, gpoll := true
                req := if p ∈ s.list then p :: s.req else s.req }

/-- `oc_process_start`, `util/oc_process.c` 113-135. -/
def start (p : Pid) (d : Nat) (s : St) : St :=
  if p ∈ s.list then s
  else { s with list := p :: s.list, state := upd s.state p .running
                up := .call p evInit d :: .restore s.cur :: s.up }

/-- An action: `oc_process_post` 441-481, `oc_process_post_synch` 483-491, `oc_process_poll` 493-503,
`oc_process_exit` 234-238, `oc_process_start` 113-135, `oc_process_run` 345-357. -/
def act (s : St) : Act → St
  | .post e => { s with queue := s.queue ++ [e], posted := s.posted ++ [e] }
  | .sync p ev d => { s with up := .call p ev d :: .restore s.cur :: s.up }
  | .poll p => poll p s
  | .exit p => exitEnter p s.cur s
  | .start p d => start p d s
  | .ret b => ret b s
  | .run => if s.up = [] ∧ s.base = .idle then runStart s else s

/-- Whether code that can act is running: a thread on top of the stack, or the program between two calls
of `oc_process_run`. -/
def St.open (s : St) : Bool :=
  match s.up with
  | .thread _ _ _ :: _ => true
  | .exitThread _ :: _ => true
  | [] => decide (s.base = .idle)
  | _ => false

/-- A step: an action of the running code, the next step of the scheduler, or one of the three accesses
of `oc_process_poll` in another thread (reading the state, setting `needspoll`, setting
`g_poll_requested`). -/
inductive Op
  | act (a : Act)
  | tick
  | poll0 (p : Pid)
  | poll1 (p : Pid)
  | poll2 (p : Pid)
  deriving DecidableEq, Repr

/-- The next step of the scheduler. -/
def tick (s : St) : St :=
  match s.up with
  | f :: k => tickFr s f k
  | [] => tickBase s

/-- One step. -/
def step (s : St) : Op → St
  | .act a => if s.open then act s a else s
  | .tick => tick s
  | .poll0 p => if s.state p = .none then s else { s with pend0 := p :: s.pend0 }
  | .poll1 p =>
    if p ∈ s.pend0 then
      { s with pend0 := s.pend0.erase p, pend1 := p :: s.pend1, needs := upd s.needs p true
               req := if p ∈ s.list then p :: s.req else s.req }
    else s
  | .poll2 p => if p ∈ s.pend1 then { s with gpoll := true, pend1 := s.pend1.erase p } else s

/-- A history. -/
def run (s : St) (ops : List Op) : St := ops.foldl step s

end Verif.Process.Dispatch
