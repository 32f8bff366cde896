import Verif.CloudStore.Model
import Verif.EpAddr.Spec
/-!
What a device keeps of its cloud configuration over a restart.
-/
namespace Verif.CloudStore

open Verif.EpAddr (Bytes Meta)

/-- The UUID `*`. -/
def wildcard : Bytes := 42 :: List.replicate 15 0

/-- The bit `OC_CLOUD_REGISTERED`. -/
def registered (st : UInt8) : Bool := st &&& 1 == 1

/-- The configuration after the restart: the same tokens, user, provider, token
validity and provisioning status; registered as before and nothing more (the unused
bit 7 aside); the same servers, the selected one is still selected and is the first
now, the others follow in their order. -/
structure Kept (s s' : Store) : Prop where
  authProvider : s'.authProvider = s.authProvider
  uid : s'.uid = s.uid
  accessToken : s'.accessToken = s.accessToken
  refreshToken : s'.refreshToken = s.refreshToken
  cps : s'.cps = s.cps
  expiresIn : s'.expiresIn = s.expiresIn
  reg : registered s'.status = registered s.status
  only : s'.status &&& 0x7e = 0
  sel : (EpAddr.servers s'.servers).cur = 0
  servers : ∃ x, (EpAddr.servers s.servers).all[(EpAddr.servers s.servers).cur]? = some x ∧
    (EpAddr.servers s'.servers).all =
      x :: (EpAddr.servers s.servers).all.eraseIdx (EpAddr.servers s.servers).cur

end Verif.CloudStore
