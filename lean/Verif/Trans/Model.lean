import Verif.Common

/-!
Model of message transactions and retransmission: messaging/coap/transactions.c
and the places of messaging/coap/engine.c that call it.

A transaction is identified by a number that is never used again, where the C
code uses the address of the block.  Time is a natural number of clock ticks
(wrap-around of timers: C10).  The retransmission timer (`oc_etimer`) is
represented by the time it is due; `none` is the state in which
`oc_etimer_expired` holds: never set, or fired.  Callbacks of the application do
not call back into the transactions.
-/

namespace Verif.Trans

/-- messaging/coap/transactions_internal.h:73-84 `coap_transaction_t`; `con` is
the local variable `confirmable` of transactions.c:127-132 (type CON and not
TCP), `secured` the flag of the endpoint. -/
structure Tx where
  id : Nat
  mid : Nat
  ep : Nat
  con : Bool
  secured : Bool
  counter : Nat
  interval : Nat
  due : Option Nat
  deriving Repr, DecidableEq

/-- Observable effects: a transmission; the observers of an endpoint removed
(transactions.c:182); the client callbacks of a message id called with
`OC_TRANSACTION_TIMEOUT` (:186) or with the code of
`coap_free_transactions_by_endpoint` (:295). -/
inductive Eff where
  | sent (id time : Nat)
  | obsRemoved (ep : Nat)
  | timeout (id mid : Nat)
  | closed (id mid : Nat)
  deriving Repr, DecidableEq

/-- `transactions_list` (transactions.c:76) with the effects so far. -/
structure St where
  list : List Tx
  nextId : Nat
  log : List Eff
  deriving Repr, DecidableEq

/-- messaging/coap/constants.h:63. -/
def maxRetransmit : Nat := 4

/-- transactions.c:152-155 with transactions_internal.h:66-71: the first
interval; `sec` is `OC_CLOCK_SECOND`, the back-off mask is `sec + 1`. -/
def firstInterval (sec rnd : Nat) : Nat := 2 * sec + rnd % (sec + 1)

/-- transactions.c:89-119 `coap_new_transaction`, successful allocation. -/
def create (s : St) (mid ep : Nat) (con secured : Bool) : St :=
  { s with list := s.list ++ [⟨s.nextId, mid, ep, con, secured, 0, 0, none⟩], nextId := s.nextId + 1 }

/-- transactions.c:147-170: the transmission of a confirmable message. -/
def arm (sec rnd now : Nat) (t : Tx) : Tx :=
  let i := if t.counter = 0 then firstInterval sec rnd else t.interval * 2
  { t with interval := i, due := some (now + i) }

/-- transactions.c:121-201 `coap_send_transaction` for the first transmission of
the transaction made last by `create` (`retrans_counter` is 0). -/
def sendNew (sec rnd now : Nat) (s : St) (id : Nat) : St :=
  { s with
    list := s.list.filterMap fun t =>
      if t.id = id then (if t.con then some (arm sec rnd now t) else none) else some t
    log := s.log ++ [.sent id now] }

/-- transactions.c:203-214 `coap_clear_transaction`. -/
def clear (s : St) (id : Nat) : St := { s with list := s.list.filter fun t => t.id ≠ id }

/-- engine.c:1132-1140 with transactions.c:215-227: every message received over
UDP removes the first transaction with its message id, whatever the type of the
message and whoever sent it. -/
def received (s : St) (mid : Nat) : St :=
  match s.list.find? fun t => t.mid = mid with
  | some t => clear s t.id
  | none => s

/-- The etimer process: timers that are due fire (util/oc_etimer.c:72-100). -/
def fire (now : Nat) (t : Tx) : Tx :=
  match t.due with
  | some d => if d ≤ now then { t with due := none } else t
  | none => t

/-- The transactions that do not belong to `ep` (transactions.c:291). -/
def others (ep : Nat) (l : List Tx) : List Tx := l.filter fun t => t.ep ≠ ep

/-- The callbacks called for the transactions of `ep` (transactions.c:291-296). -/
def closing (ep : Nat) (l : List Tx) : List Eff := (l.filter fun t => t.ep = ep).map fun t => .closed t.id t.mid

/-- transactions.c:274-305 `coap_free_transactions_by_endpoint`. -/
def freeEp (s : St) (ep : Nat) : St :=
  { s with
    list := others ep s.list
    log := s.log ++ closing ep s.list }

/-- transactions.c:243-261 `coap_check_transactions` with the retransmission and
timeout branches of `coap_send_transaction` (:147-200).  `before` are the
transactions passed, the list argument those still to visit.  `peer ep` tells
whether `oc_tls_close_connection` finds a (D)TLS peer, whose removal frees all
transactions of the endpoint (security/oc_tls.c:2316-2330, 604-613, 539).  When
more than one transaction was removed the walk starts again from the head. -/
def walk (sec rnd now : Nat) (peer : Nat → Bool) : List Tx → List Tx → List Eff → List Tx × List Eff
  | before, [], log => (before, log)
  | before, t :: todo, log =>
    if t.due = none then
      let t' := { t with counter := (t.counter + 1) % 256 }
      if !t'.con then walk sec rnd now peer before todo (log ++ [.sent t.id now])
      else if t'.counter < maxRetransmit then
        walk sec rnd now peer (before ++ [arm sec rnd now t']) todo (log ++ [.sent t.id now])
      else
        if t.secured then
          if peer t.ep then
            if (others t.ep (before ++ t :: todo)).length + 1 < before.length + (todo.length + 1) then
              walk sec rnd now peer [] (others t.ep (before ++ t :: todo))
                (log ++ [.obsRemoved t.ep, .timeout t.id t.mid] ++ closing t.ep (before ++ t :: todo))
            else
              walk sec rnd now peer before todo
                (log ++ [.obsRemoved t.ep, .timeout t.id t.mid] ++ closing t.ep (before ++ t :: todo))
          else walk sec rnd now peer (before ++ [t']) todo (log ++ [.obsRemoved t.ep, .timeout t.id t.mid])
        else walk sec rnd now peer before todo (log ++ [.obsRemoved t.ep, .timeout t.id t.mid])
    else walk sec rnd now peer (before ++ [t]) todo log
termination_by before todo => (before.length + todo.length, todo.length)
decreasing_by
  all_goals first
    | exact Prod.Lex.left _ _ (by simp only [List.length_nil, List.length_cons]; omega)
    | exact Prod.Lex.left _ _ (by simp only [List.length_append, List.length_cons, List.length_nil] at *; omega)
    | (simp only [Prod.lex_def, List.length_append, List.length_cons, List.length_nil] at *; omega)

/-- A timer event of the engine (engine.c:1242-1244): the timers due have fired,
then the transactions are checked. -/
def check (sec rnd now : Nat) (peer : Nat → Bool) (s : St) : St :=
  let r := walk sec rnd now peer [] (s.list.map (fire now)) s.log
  { s with list := r.1, log := r.2 }

/-- One step of a history, at a time. -/
inductive Op where
  | start (rnd mid ep : Nat) (con secured : Bool)
  | recv (mid : Nat)
  | clear (id : Nat)
  | freeEp (ep : Nat)
  | check (rnd : Nat) (peer : Nat → Bool)

/-- The callers: api/oc_client_api.c and messaging/coap create a transaction and
send it in one step; the other steps are those above. -/
def exec (sec now : Nat) (s : St) : Op → St
  | .start rnd mid ep con secured => sendNew sec rnd now (create s mid ep con secured) s.nextId
  | .recv mid => received s mid
  | .clear id => clear s id
  | .freeEp ep => freeEp s ep
  | .check rnd peer => check sec rnd now peer s

/-- No transactions yet. -/
def init : St := ⟨[], 0, []⟩

/-- A history: steps with their times. -/
def run (sec : Nat) : St → List (Nat × Op) → St
  | s, [] => s
  | s, (now, o) :: h => run sec (exec sec now s o) h

end Verif.Trans
