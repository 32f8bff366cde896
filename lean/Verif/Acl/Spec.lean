import Verif.Acl.Model

/-! Specification of the access decision: the rules, without loops and bit masks. -/

namespace Verif.Acl.Spec

open Verif.Rep (Bytes b)

/-- A permission allows a method: retrieve or notify for GET, create or update for
POST and PUT, delete for DELETE. -/
def Permits (m : Method) (p : BitVec 16) : Prop :=
  match m with
  | .get => p.getLsbD 1 = true ∨ p.getLsbD 4 = true
  | .post | .put => p.getLsbD 0 = true ∨ p.getLsbD 2 = true
  | .delete => p.getLsbD 3 = true
  | .fetch => False

/-- A wildcard covers a resource: "*" all, "+" the discoverable ones, "-" the
discoverable ones with an unsecured endpoint. -/
def WcCovers (w : Wc) (r : Res) : Prop :=
  match w with
  | .no => False
  | .all => True
  | .secured => r.discoverable = true
  | .pub => r.discoverable = true ∧ r.secure = false

/-- The entry names a resource. -/
def Entry.named (e : Entry) (h : Bytes) : Prop := e.href = some h ∧ h ≠ []

/-- An entry of an ACE covers a resource: whatever it gives (name, wildcard) fits,
and something it gives applies; wildcards do not apply to device configuration
resources. -/
def Covers (e : Entry) (r : Res) : Prop :=
  (∀ h, Entry.named e h → h = r.uri) ∧
  (e.wc ≠ .no → r.dcr = false → WcCovers e.wc r) ∧
  ((∃ h, Entry.named e h) ∨ (e.wc ≠ .no ∧ r.dcr = false))

/-- The subject of an ACE is the given one; a role without authority stands for
all authorities. -/
def IsSubject (a s : Subject) : Prop :=
  match a, s with
  | .uuid x, .uuid y => x = y
  | .role x auth, .role y auth' => x = y ∧ (auth = [] ∨ auth = auth')
  | .conn x, .conn y => x = y
  | _, _ => False

/-- The ACL grants the method to a subject. -/
def Grants (acl : List Ace) (s : Subject) (r : Res) (m : Method) : Prop :=
  ∃ a ∈ acl, IsSubject a.subject s ∧ (∃ e ∈ a.resources, Covers e r) ∧ Permits m a.permission

/-- The roles a peer has: those of its PSK credentials, or the asserted ones with
a valid certificate. -/
def HasRole (e : Env) (p : Peer) (role authority : Bytes) : Prop :=
  if p.psk then ∃ c ∈ e.creds, c.psk = true ∧ c.subject = e.di ∧ c.role = role ∧ c.authority = authority ∧ role ≠ []
  else e.cfg.pki = true ∧ ∃ c ∈ p.roles, c.valid = true ∧ c.role = role ∧ c.authority = authority

/-- The peer asserted the owner role with a valid certificate. -/
def IsOwnerRole (e : Env) (p : Peer) : Prop :=
  p.psk = false ∧ e.cfg.pki = true ∧ ∃ c ∈ p.roles, c.valid = true ∧ c.role = b "oic.role.owner"

/-- Granted by the access control list or a role. -/
def ByPermissions (e : Env) (r : Res) (m : Method) : Prop :=
  Grants e.acl (.uuid e.di) r m ∨
  (∃ p, e.peer = some p ∧ ((IsOwnerRole e p ∧ m ≠ .fetch) ∨
    ∃ role authority, HasRole e p role authority ∧ Grants e.acl (.role role authority) r m)) ∨
  (r.svr = false ∧ (Grants e.acl (.conn .anonClear) r m ∨
    (e.secured = true ∧ Grants e.acl (.conn .authCrypt) r m)))

/-- The requester owns the security resource. -/
def Owner (e : Env) (r : Res) : Prop :=
  (r.uri = b "/oic/sec/acl2" ∧ e.aclOwner = e.di) ∨ (r.uri = b "/oic/sec/doxm" ∧ e.doxmOwner = e.di) ∨
  (r.uri = b "/oic/sec/pstat" ∧ e.pstatOwner = e.di) ∨ (r.uri = b "/oic/sec/cred" ∧ e.credOwner = e.di)

/-- Resources that everyone may retrieve. -/
def OpenToRead (e : Env) (r : Res) : Prop :=
  (e.dos = .rfotm ∧ (r.uri = b "/oic/res" ∨ r.uri = b "/oic/d" ∨ r.uri = b "/oic/p")) ∨
  (e.cfg.plgdTime = true ∧ r.uri = b "/x.plgd.dev/time") ∨
  (e.cfg.wkcore = true ∧ r.uri = b "/.well-known/core")

/-- Provisioned states. -/
def Provisioned (d : Dos) : Prop := d = .rfpro ∨ d = .rfnop ∨ d = .sreset

/-- The rules. -/
def Allowed (e : Env) (r : Res) (m : Method) : Prop :=
  -- a resource that the application opened for onboarding
  (e.dos = .rfotm ∧ e.secured = false ∧ e.numPeers ≠ 1 ∧ e.cfg.rfotmAccess = true ∧ r.accessInRfotm = true ∧
    Permits m r.anonPerm) ∨
  -- otherwise: not an unsecured request while onboarding, application resources only
  -- in normal operation, and vertical ones only over a secured channel
  (¬ (e.dos = .rfotm ∧ e.secured = false ∧ e.numPeers = 1) ∧
    (r.dcr = true ∨ (e.dos = .rfnop ∧ (r.vertical = true → e.secured = true))) ∧
    -- the onboarding connection
    ((r.dcr = true ∧ ∃ p, e.peer = some p ∧ p.doc = true) ∨
    -- discovery
    (m = .get ∧ OpenToRead e r) ∨
    -- before onboarding
    (e.dos = .rfotm ∧ e.numPeers = 0 ∧ (r.uri = b "/oic/sec/doxm" ∨ (m = .get ∧ r.uri = b "/oic/sec/pstat"))) ∨
    -- owners, roles, access control list
    (¬ (e.dos = .rfotm ∧ e.numPeers = 0) ∧
      ¬ (r.svr = true ∧ e.secured = false ∧ Provisioned e.dos) ∧
      (Owner e r ∨ (e.cfg.pki = true ∧ r.uri = b "/oic/sec/roles" ∧ Provisioned e.dos) ∨ ByPermissions e r m))))

end Verif.Acl.Spec
