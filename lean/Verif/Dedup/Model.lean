import Verif.Common

/-!
Model of the recognition of repeated requests: `g_history`, `g_history_dev` and
`g_idx` of messaging/coap/engine.c:91-134 and their use in
`coap_receive_init_response` (engine.c:246-279) for messages over UDP.
-/

namespace Verif.Dedup

/-- engine.c:97 `OC_REQUEST_HISTORY_SIZE`. -/
def size : Nat := 25

/-- A request as far as it matters: confirmable or not, message id, number of the
local device it is for, and the peer that sent it (which the code does not look
at). -/
structure Req where
  con : Bool
  mid : Nat
  dev : Nat
  peer : Nat
  deriving Repr, DecidableEq

/-- engine.c:98-100: the two arrays, as an array of pairs, and the index. -/
structure St where
  ring : List (Nat × Nat)
  idx : Nat
  deriving Repr, DecidableEq

/-- engine.c:102-108 `oc_request_history_init`; also the static initial values. -/
def init : St := ⟨List.replicate size (0, 0), 0⟩

/-- engine.c:110-133 `oc_coap_check_if_duplicate`. -/
def isDup (s : St) (r : Req) : Bool :=
  s.ring.any fun h => h.1 == r.mid && h.2 == r.dev

/-- engine.c:259-278: `true` if the request goes on to be processed.  Confirmable
requests are not compared. -/
def receive (s : St) (r : Req) : St × Bool :=
  if r.con then (s, true)
  else if isDup s r then (s, false)
  else (⟨s.ring.set s.idx (r.mid, r.dev), (s.idx + 1) % size⟩, true)

/-- A history of requests: the final state and for each request whether it was
processed. -/
def run : St → List Req → St × List Bool
  | s, [] => (s, [])
  | s, r :: rs =>
    let x := receive s r
    let y := run x.1 rs
    (y.1, x.2 :: y.2)

end Verif.Dedup
