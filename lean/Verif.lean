import Verif.Common
import Verif.Base64.Props
import Verif.Uuid.Props
import Verif.Crc.Props
import Verif.Hex.Props
import Verif.OcList.Props
import Verif.Memb.Props
import Verif.Mmem.Props
import Verif.Timer.Props
import Verif.Process.Props
import Verif.Etimer.Props
import Verif.Coap.Props
import Verif.CoapMsg.Props
import Verif.CoapMsg.Safety
import Verif.TcpStream.Props
import Verif.Trans.Props
import Verif.Blockwise.Props
import Verif.Dedup.Props
import Verif.Observe.Props
import Verif.Observe.Overflow
import Verif.Observe.Seq
import Verif.Query.Props
import Verif.RepJson.Props
import Verif.Rep.Props
import Verif.Acl.Props
import Verif.Acl.UpdateProps
import Verif.Acl.StoreProps
import Verif.Sp.Props
import Verif.Sdi.Props
import Verif.Doxm.Props
import Verif.Pstat.Props
import Verif.Oscore.Props
import Verif.Oscore.Replay
import Verif.Oscore.Ssn
import Verif.Cred.Props
import Verif.Cred.Roles
import Verif.Cred.History
import Verif.Cred.Guard
import Verif.Cred.Data
import Verif.Etag.Props
import Verif.Etag.Incr
import Verif.Etag.Load
import Verif.Storage.Props
import Verif.Ael.Props
import Verif.Rfc3339.Props
import Verif.Rfc3339.Tm
import Verif.Delayed.Props
import Verif.Client.Props
import Verif.Endpoint.Props
import Verif.EpAddr.Props
import Verif.CloudStore.Props
import Verif.Cloud.Props
import Verif.Cloud.PropsRegister
import Verif.Json.Props
import Verif.Cloud.PropsKeep
import Verif.Ri.Props
import Verif.Separate.Props
import Verif.Session.Props
import Verif.Json.StrProps
import Verif.PlgdTime.Props
import Verif.MsgRef.Props
import Verif.NetQueue.Props
import Verif.Collection.Props
import Verif.StrArr.Props
import Verif.CloudRd.Props
import Verif.Certs.Props
import Verif.Certs.Handshake
import Verif.Certs.Roles
import Verif.CloudRd.Timer
import Verif.Discovery.Props
import Verif.Discovery.Batch
import Verif.Discovery.Client
import Verif.Tls.Stream
import Verif.Tls.Handshake
import Verif.Tls.Psk
import Verif.Tls.Prf
import Verif.Swu.Props
import Verif.Obt.Props
import Verif.Dhcp.Props
import Verif.Dps.Retry
import Verif.Dps.Pin
import Verif.Dps.Cert
import Verif.Dps.Prov
import Verif.Process.Dispatch
import Verif.Push.Props
import Verif.PushRecv.Props
import Verif.Factory.Props
import Verif.TcpConn.Props
import Verif.Engine.Props
import Verif.Engine.Props2
import Verif.Batch.Props
import Verif.Notify.Props
import Verif.Engine.Props3
import Verif.OscoreEng.Props
import Verif.OscoreEng.Props2
import Verif.TlsPeers.Props
import Verif.Encode.Props
import Verif.Life.Props
import Verif.ObtRead.Props
import Verif.ObtDel.Props
import Verif.ObtInit.Props
import Verif.ObtFind.Props
import Verif.ConRes.Props
