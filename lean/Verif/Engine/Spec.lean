import Verif.Engine.Model

/-!
The vocabulary of the properties of the engine: RFC 7252 sections 4.2, 4.3, 5.2
and 5.3 in terms of messages on the wire.
-/

namespace Verif.Engine

/-- RFC 7252 4.2: an empty acknowledgement of a message. -/
def emptyAck (m : Msg) : Sent := ⟨m.ep, ⟨false, 2, 0, m.mid, [], false⟩⟩

/-- RFC 7252 4.2: a reset of a message. -/
def rst (m : Msg) : Sent := ⟨m.ep, ⟨false, 3, 0, m.mid, [], false⟩⟩

/-- RFC 7252 5.2.1: a response in the acknowledgement. -/
def piggybacked (m : Msg) (code : Nat) : Sent := ⟨m.ep, ⟨false, 2, code, m.mid, m.token, false⟩⟩

/-- RFC 7252 5.2.2, 5.2.3: a response in a message of its own. -/
def own (m : Msg) (typ code mid : Nat) : Sent := ⟨m.ep, ⟨false, typ, code, mid, m.token, false⟩⟩

/-- RFC 7252 4.2: a message that tells the sender of `m` to stop retransmitting. -/
def settles (m : Msg) (o : Sent) : Bool :=
  o.ep == m.ep && o.pkt.mid == m.mid && !o.pkt.tcp && (o.pkt.typ == 2 || o.pkt.typ == 3)

/-- The messages that start an exchange of their own: CON and NON with the
framing of UDP. -/
def originated (o : Sent) : Bool := !o.pkt.tcp && (o.pkt.typ == 0 || o.pkt.typ == 1)

/-- A request received over UDP without errors. -/
def UdpRequest (m : Msg) (e : Env) : Prop :=
  m.ep.tcp = false ∧ 1 ≤ m.code ∧ m.code ≤ 4 ∧ e.err = none

/-- Nothing prevents the answer from being sent: memory, a serialized answer, a
running stack, and no module asked for silence. -/
def Unhindered (e : Env) : Prop :=
  e.txAlloc = true ∧ e.msgAlloc = true ∧ e.ser = true ∧ e.running = true ∧
    e.again = false ∧ e.ans.2 = false ∧ (∀ x, e.hdr = some x → x.2 = false ∧ x.1 ≠ 0)

/-- A message whose processing does not use the context of an earlier one. -/
def Ordinary (m : Msg) : Prop := m.ep.tcp = true → m.b1 = none ∧ m.b2 = none

/-- The CSM that goes ahead of a message over TCP. -/
def ahead (s : St) (ep : Ep) (e : Env) : List Sent :=
  if ep.tcp = true ∧ ep.v1 = true ∧ csm s ep = .none ∧ e.msgAlloc = true then
    [⟨ep, ⟨true, 1, 225, 0, e.rnd, false⟩⟩] else []

/-- A sent message as the peer of `ep` (who knows the sender as `ep`) receives
it. -/
def delivered (o : Sent) (ep : Ep) : Msg :=
  ⟨ep, o.pkt.typ, o.pkt.code, o.pkt.mid, o.pkt.token, o.pkt.custody, 0, none, none, false⟩

/-- Every identity of a transaction was given out before. -/
def Inv (s : St) : Prop := (∀ t ∈ s.txs, t.id < s.nextId)

end Verif.Engine
