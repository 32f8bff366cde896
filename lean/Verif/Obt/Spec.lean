import Verif.Obt.Model
/-!
What an application that onboards and provisions devices relies on.
-/
namespace Verif.Obt

/-- A device that belongs to the tool: it was told so by the selected method, every
security resource has the tool as its owner, it goes by the UUID the tool knows it by,
it holds the key the tool holds, it is in its security domain if it has any, and it is in
normal operation with the access control of the tool. -/
structure Onboarded (me dom : Id) (oxm : Nat) (u : Id) (d : Dev) (kept : List Cred) : Prop where
  sel : d.sel = oxm
  om : d.om = 4
  devowner : d.devowner = me
  uuid : d.uuid = u
  rowDoxm : d.rowDoxm = me
  rowAcl : d.rowAcl = me
  rowPstat : d.rowPstat = me
  rowCred : d.rowCred = me
  owned : d.owned = true
  dos : d.dos = .rfnop
  acl : ∃ x, d.acl = [(me, x)] ∧ (x = true → d.sdi = dom)
  key : ∃ k, d.key = some k ∧ k.dev = u ∧ k.owner = me ∧ k.oxm = oxm ∧ kept = [⟨u, true, some k⟩]

/-- What is true at the moment an application is called. -/
def CbSpec (me dom : Id) (e : Cb) : Prop :=
  match e.kind with
  | .otm m => (e.ok = true → Onboarded me dom m.oxm e.uuid e.dev e.kept) ∧ (e.ok = false → e.kept = [])
  | .pin => e.ok = true → e.dev.sel = 1
  | .reset => e.ok = true → e.dev.dos = .reset ∧ e.dev.owned = false ∧ e.dev.key = none ∧ e.dev.acl = [] ∧ e.kept = []
  | .ace n => e.ok = true → n ∈ e.dev.aces ∧ e.dev.dos = .rfnop
  | .pair => e.ok = true → ∃ k, (e.uuid2, k) ∈ e.dev.peers ∧ (e.uuid, k) ∈ e.dev2.peers ∧ e.dev.dos = .rfnop ∧ e.dev2.dos = .rfnop

/-- The cached device is gone after that call. -/
def Cb.gone (e : Cb) : Bool :=
  match e.kind with
  | .otm _ | .pin => !e.ok
  | .reset => true
  | _ => false

/-- A sequence runs with the device at an address. -/
def BusyAt (s : St) (a : Nat) : Prop :=
  ∃ c ∈ s.ctxs, ∃ x, (s.handle c.h = some x ∨ s.handle c.h2 = some x) ∧ x.addr = a

/-- No sequence runs with the devices cached under a UUID, and their endpoints are
known. -/
def FreeFor (s : St) (u : Id) : Prop :=
  ∀ i x, s.handle i = some x → x.uuid = u → ¬ BusyAt s x.addr ∧ i ∉ s.eps

/-- The same without the endpoints. -/
def IdleFor (s : St) (u : Id) : Prop :=
  ∀ i x, s.handle i = some x → x.uuid = u → ¬ BusyAt s x.addr

/-- What an application and its environment have to keep to: one sequence at a time
with a device, and not before its endpoints are known; no new discovery of it and nobody
else changes it meanwhile; no sequence is started in a callback; credentials can be
added; random UUIDs are new.  `OC_REQUEST_TIMEOUT` is reported for requests with a time
limit only (api/oc_client_api.c), and the sequences do not set one. -/
def Fair (s : St) : Op → Prop
  | .start k u u2 _ cred => cred = true ∧ u ≠ s.me ∧ FreeFor s u ∧
      (k = .pair → FreeFor s u2 ∧ u ≠ u2 ∧
        ∀ i x j y, s.handle i = some x → s.handle j = some y → x.uuid = u → y.uuid = u2 → x.addr ≠ y.addr)
  | .respond _ r again => again = none ∧ r.code ≠ requestTimeout ∧ (∀ c ∈ s.creds, c.subj ≠ r.fresh) ∧
      ∀ i x, s.handle i = some x → x.uuid ≠ r.fresh
  | .discover a => ¬ BusyAt s a ∧ IdleFor s (s.net a).uuid
  | .endpoints _ _ => True
  | .discoverOwned a => ¬ BusyAt s a ∧ IdleFor s (s.net a).uuid
  | .env a _ => ¬ BusyAt s a

/-- A history that keeps to it. -/
def FairRun : St → List Op → Prop
  | _, [] => True
  | s, op :: ops => Fair s op ∧ ∀ s', step s op = .ok s' → FairRun s' ops

/-- The tool at its start: nothing cached, nothing running, credentials of devices it
owns, at most one for each. -/
structure Init (s : St) : Prop where
  heap : s.heap = []
  cache : s.cache = []
  devs : s.devs = []
  ctxs : s.ctxs = []
  pend : s.pend = []
  eps : s.eps = []
  log : s.log = []
  owner : ∀ c ∈ s.creds, c.owner = true
  one : ∀ u, (s.creds.filter (·.subj == u)).length ≤ 1

end Verif.Obt
