/-
What the properties of notifications are stated with.
-/
import Verif.Notify.Model

namespace Verif.Notify

/-- The notification an observer gets for a representation, with message id `m`: its
own token and sequence number; over UDP in blocks if it is longer than a block,
and confirmable then and otherwise every fifth time. -/
def noteOf (o : Obs) (b : Buf) (m : Nat) : Note :=
  if b.len > o.block && !o.tcp then ⟨o.ep, o.token, b.code, o.cnt, true, some b.body, true, m⟩
  else ⟨o.ep, o.token, b.code, o.cnt, o.cnt % 5 == 0 && !o.tcp, some b.body, false, m⟩

/-- An observer's address: where to, and for which of its requests. -/
def key (o : Obs) : Nat × List UInt8 := (o.ep, o.token)

/-- A notification's address. -/
def dest (n : Note) : Nat × List UInt8 := (n.ep, n.token)

/-- The representations, in order, with the observers that are to get them, as
notifications with message ids from `m` on. -/
def notes (l : List (Obs × Buf)) (m : Nat) : List Note := (l.zipIdx m).map fun p => noteOf p.1.1 p.1.2 p.2

/-- The observers of a resource a change concerns: all (or those of one endpoint),
of a collection only with the baseline interface, of discovery not those with the
batch interface, and not those that asked to be told of startup only. -/
def wanted (r : Res) (ep : Option Nat) (o : Obs) : Bool :=
  decide (o.res = r.id ∧ (∀ x, ep = some x → o.ep = x) ∧ (r.coll = true → o.iface = ifBaseline) ∧
    (r.disc = true → o.iface ≠ ifB) ∧ o.iface ≠ ifStartup)

/-- The observers of a collection a change of a member concerns: those with the
batch interface, asked for or by default. -/
def collWanted (c : Coll) (o : Obs) : Bool :=
  decide (o.res = c.id ∧ (o.iface = ifB ∨ o.iface ||| ifB = c.dflt))

/-- The collections that have the resource as a member. -/
def linking (e : Env) (r : Res) : List Coll := e.colls.filter fun c => decide (r.id ∈ c.links)

/-- Observers are different, and no two are for the same thing
(`coap_add_observer` removes the older one, observe.c:319-326). -/
def Distinct (s : St) : Prop := (s.obs.map (·.id)).Nodup ∧ (s.obs.map fun o => (o.ep, o.res, o.iface)).Nodup

/-- A representation that can be sent as it is. -/
def Sendable (b : Buf) : Prop := b.len ≠ 0 ∧ b.code < 128

/-- No notification in blocks is under way to the observer. -/
def Idle (s : St) (o : Obs) : Prop := ∀ x ∈ s.xfers, ¬(x.ep = o.ep ∧ x.res = o.res ∧ x.iface = o.iface)

/-- The interface a representation for observers is made for: the baseline one (2) of
collections, the default one of other resources. -/
def ifaceFor (r : Res) : Nat := if r.coll then 2 else r.dflt

/-- Sequence numbers are from 2 to 2 ^ 24 - 1; 0 and 1 are the requests to begin and to end
an observation. -/
def InRange (s : St) : Prop := ∀ o ∈ s.obs, 2 ≤ o.cnt ∧ o.cnt < 2 ^ 24

end Verif.Notify
