import Verif.Cloud.Model
import Verif.EpAddr.Spec
/-!
What the cloud client is expected to do, without the code's helpers.
-/
namespace Verif.Cloud

open Verif.EpAddr (Bytes Servers Meta)

/-- A redirection to `uri`: the selected server is taken out, `uri` is selected; if it
is not among the servers it is put behind them and inherits what is known about the
server it replaces (without servers: the nil identifier). -/
def Redirected (x : Servers) (uri : Bytes) (y : Servers) : Prop :=
  let known : Meta := match x.all[x.cur]? with | some q => q.2 | none => .uuid (List.replicate 16 0)
  let more := if uri ∈ x.all.map (·.1) then x.all else x.all ++ [(uri, known)]
  y.all = (if x.all = [] then more else more.eraseIdx x.cur) ∧ (y.all[y.cur]?).map (·.1) = some uri

end Verif.Cloud
