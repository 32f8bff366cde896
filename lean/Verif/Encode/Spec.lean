import Verif.Encode.Model

/-!
What the messages and records of an application should carry, without memory, the
encoder or global variables: an application does one thing after the other, and
each message carries what was encoded for it.
-/

namespace Verif.Encode

/-- The payload that a list of encoding calls stands for. -/
def text (c : Cfg) (f : Fmt) : List Nat → Bytes
  | [] => []
  | v :: vs => c.enc f v ++ text c f vs

/-- The name of an encoding in the options of a message. -/
def named : Fmt → Cf
  | .cbor => .cbor
  | .json => .json

/-- Things an application does: a request without payload; a request with one; a
multicast update; a record stored; the connection to an endpoint ends. -/
inductive Simple where
  | get (r : Req)
  | post (r : Req) (vs : List Nat)
  | update (uri : Nat) (vs : List Nat)
  | store (name : Nat) (vs : List Nat)
  | close (ep : Nat)
  deriving Repr

/-- These things and the serving of requests: the answer is encoded, then given,
then other things may be done before the handler returns. -/
inductive Job where
  | simple (x : Simple)
  | serve (rq : Rq) (vs : List Nat) (ok : Bool) (after : List Simple)
  deriving Repr

/-- The calls of the API that a thing consists of. -/
def Simple.ops : Simple → List Op
  | .get r => [.prepare r, .dispatch true]
  | .post r vs => [.prepare r] ++ vs.map .encode ++ [.dispatch true]
  | .update u vs => [.updInit u] ++ vs.map .encode ++ [.updDo]
  | .store n vs => [.dump n vs]
  | .close e => [.close e]

/-- The calls of the API that a job consists of. -/
def Job.ops : Job → List Op
  | .simple x => x.ops
  | .serve rq vs ok after => [.begin_ rq] ++ vs.map .encode ++ [.send ok] ++ after.flatMap Simple.ops ++ [.finish]

/-- The payload is not too long: for messages and records `OC_MAX_APP_DATA_SIZE`, for
multicast updates one block. -/
def Simple.fits (c : Cfg) (f : Fmt) : Simple → Prop
  | .get r => r.m = .get
  | .post r vs => r.m ≠ .get ∧ (text c f vs).length ≤ c.maxApp
  | .update _ vs => (text c f vs).length ≤ c.block
  | .store _ vs => (text c f vs).length ≤ c.maxApp
  | .close _ => True

/-- A payload with its format; nothing at all if it is empty. -/
def carried (f : Cf) (p : Bytes) : Option (Body × Cf) := if p = [] then none else some (.bytes p, f)

/-- What should leave the device. -/
def Simple.msgs (c : Cfg) (f : Fmt) : Simple → List Msg
  | .get r => [.request .get r.ep r.uri r.con (named f) none]
  | .post r vs =>
    [.request r.m r.ep r.uri (r.con || (!r.tcp && decide (c.block < (text c f vs).length))) (named f)
      (carried (named f) (text c f vs))]
  | .update u vs => if text c f vs = [] then [] else [.update u (.bytes (text c f vs)) (named f)]
  | .store n vs => [.stored n (.bytes (text c f vs))]
  | .close _ => []

/-- The encoding of an answer: the one asked for, CBOR if none was; for another the
one used before. -/
def asked (f : Fmt) : Option Cf → Fmt
  | none => .cbor
  | some .cbor => .cbor
  | some .json => .json
  | some (.other _) => f

/-- The object without properties: `bf ff`, `{}`. -/
def nothing : Fmt → Bytes
  | .cbor => [0xbf, 0xff]
  | .json => [0x7b, 0x7d]

/-- The payload of an answer: an empty object counts as none, and so do two bytes or
less unless the answer is the content asked for by a GET. -/
def answer (rq : Rq) (ok : Bool) (f : Fmt) (p : Bytes) : Option (Body × Cf) :=
  if p = [] ∨ p = nothing f then none
  else if (rq.get && ok) = false ∧ p.length ≤ 2 then none
  else some (.bytes p, rq.accept.getD .cbor)

/-- The encoding in use after a job. -/
def Job.fmt (f : Fmt) : Job → Fmt
  | .simple _ => f
  | .serve rq _ _ _ => asked f rq.accept

/-- The payloads of a job are not too long. -/
def Job.fits (c : Cfg) (f : Fmt) : Job → Prop
  | .simple x => x.fits c f
  | .serve rq vs _ after =>
    (text c (asked f rq.accept) vs).length ≤ c.maxApp ∧ ∀ x ∈ after, x.fits c (asked f rq.accept)

/-- What should leave the device during a job. -/
def Job.msgs (c : Cfg) (f : Fmt) : Job → List Msg
  | .simple x => x.msgs c f
  | .serve rq vs ok after =>
    after.flatMap (Simple.msgs c (asked f rq.accept)) ++
      [.response rq.id ok (answer rq ok (asked f rq.accept) (text c (asked f rq.accept) vs))]

/-- What should leave the device during several jobs. -/
def msgs (c : Cfg) : Fmt → List Job → List Msg
  | _, [] => []
  | f, j :: js => j.msgs c f ++ msgs c (j.fmt f) js

/-- The payloads of several jobs are not too long. -/
def AllFit (c : Cfg) : Fmt → List Job → Prop
  | _, [] => True
  | f, j :: js => j.fits c f ∧ AllFit c (j.fmt f) js

end Verif.Encode
