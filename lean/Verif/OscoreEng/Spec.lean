import Verif.OscoreEng.Model

/-!
What the theorems about the OSCORE engine are stated with.
-/

namespace Verif.OscoreEng

/-- The key material of a system: of every node, of every context. -/
def mats (s : Sys) : List (List Mat) := s.nodes.map (fun n => n.ctxs.map (fun c => c.mat))

/-- A system before anything was sent, with partial IVs that fit. -/
structure Spec.Start (s : Sys) : Prop where
  wire : s.wire = []
  log : s.log = []
  cbs : ∀ n ∈ s.nodes, ∀ c ∈ n.cbs, c.piv.length ≤ 5
  trs : ∀ n ∈ s.nodes, ∀ t ∈ n.trs, t.piv.length ≤ 5

/-- Contexts as they are provisioned (lengths as in security/oc_oscore_context_internal.h):
the ids fit and differ. -/
def Spec.Proper (m : Mat) : Prop :=
  m.sendid.length ≤ 7 ∧ m.recvid.length ≤ 7 ∧ m.civ.length = 13 ∧ m.sendid ≠ m.recvid

/-- What key derivation gives (RFC 8613 section 3.2): the recipient key of one context is
the sender key of another one only if these were made of the same secret and the ids are
the other way round. -/
structure Spec.Keys (s : Sys) : Prop where
  proper : ∀ l ∈ mats s, ∀ m ∈ l, Spec.Proper m
  pair : ∀ l ∈ mats s, ∀ m ∈ l, ∀ l' ∈ mats s, ∀ m' ∈ l', m.recvkey = m'.sendkey →
    m.recvid = m'.sendid ∧ m.sendid = m'.recvid ∧ m.civ = m'.civ

/-- Every sender key belongs to one context of one node. -/
def Spec.OneOwner (s : Sys) : Prop :=
  ∀ (k k' : Nat) (l l' : List Mat) (i i' : Nat) (m m' : Mat), (mats s)[k]? = some l → (mats s)[k']? = some l' → l[i]? = some m →
    l'[i']? = some m' → m.sendkey = m'.sendkey → k = k' ∧ i = i'

/-- A node waits for an answer of the peer `uuid` to the request with the partial IV `r`
(or for the acknowledgement of the message with it): by the token, or by the message id. -/
def Spec.Waits (n : Node) (token : Bytes) (mid : Nat) (uuid : Nat) (r : Bytes) : Prop :=
  (∃ cb ∈ n.cbs, cb.token = token ∧ cb.uuid = uuid ∧ cb.piv = r) ∨
  (∃ t ∈ n.trs, (t.token = token ∨ t.mid = mid) ∧ t.uuid = uuid ∧ t.piv = r)

end Verif.OscoreEng
