import Verif.TlsPeers.Model

/-! What is expected of the (D)TLS sessions, area TlsPeers. -/

namespace Verif.TlsPeers.Spec

/-- The message an event carries. -/
def evMsgs : Ev → List Msg
  | .recv m => [m]
  | .send m => [m]
  | _ => []

/-- The messages the handler holds: those of its events and those in the two queues of
its peers. -/
def held (s : St) : List Msg :=
  s.q.flatMap evMsgs ++ s.peers.flatMap fun p => p.sendq ++ p.recvq

/-- The application closes no session from within its callbacks. -/
def Quiet (c : Cfg) : Prop := ∀ e, c.onEnd e = none ∧ c.onStart e = none

/-- A step in which no roles are asserted and in which the device does not send to an
endpoint that is just opening a session to it. -/
def Tame (s : St) : Op → Prop
  | .run o => o.roles = none ∧
      ∀ m l, s.q = .send m :: l → ∀ p ∈ s.peers, eqEp p.ep m.ep = true → p.over = true ∨ p.client = true
  | _ => True

/-- All the steps of a run are tame. -/
def TameRun (c : Cfg) : St → List Op → Prop
  | _, [] => True
  | s, op :: ops => Tame s op ∧ ∀ s', step c s op = .ok s' → TameRun c s' ops

/-- Nothing is left of an endpoint: no session, no event of a session or message, no
decrypted message that waits. -/
structure Gone (s : St) (ep : Ep) : Prop where
  peers : ∀ p ∈ s.peers, eqEp p.ep ep = false
  msgs : ∀ m, (Ev.recv m ∈ s.q ∨ Ev.send m ∈ s.q) → eqEp m.ep ep = false
  ups : ∀ e ∈ s.ups, eqEp e ep = false

/-- A device has at most one session. -/
def One (s : St) (d : Nat) : Prop := ∀ p ∈ s.peers, ∀ q ∈ s.peers, p.ep.dev = d → q.ep.dev = d → p.addr = q.addr

end Verif.TlsPeers.Spec
