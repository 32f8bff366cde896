import Verif.Acl.Update

/-! Model of the encoding of the access control list (security/oc_acl.c:112-143,
security/oc_ace.c:366-469): the representation that the decoder is given when the
stored data is loaded.  The CBOR encoding itself is not modelled. -/

namespace Verif.Acl

open Verif.Rep (Bytes b Val Rep)

/-- security/oc_ace.c `oc_ace_connection_type_to_string`. -/
def connToString : Conn → Bytes
  | .authCrypt => b "auth-crypt"
  | .anonClear => b "anon-clear"

/-- security/oc_ace.c:366-406 `ace_encode_subject`. -/
def encodeSubject : Subject → Rep
  | .uuid u => [(b "uuid", .str (Sec.uuidText u))]
  | .role r a => (b "role", .str r) :: (if a.isEmpty then [] else [(b "authority", .str a)])
  | .conn c => [(b "conntype", .str (connToString c))]

/-- security/oc_ace.c:40-58 `oc_ace_wildcard_to_string`. -/
def wcToString : Wc → Bytes
  | .no => []
  | .all => b "*"
  | .secured => b "+"
  | .pub => b "-"

/-- security/oc_ace.c:408-427 `ace_encode_subject_resource`: the name, or else the
wildcard. -/
def encodeEntry (e : Entry) : Rep :=
  if (e.href.getD []).length > 0 then [(b "href", .str (e.href.getD []))]
  else if (wcToString e.wc).length > 0 then [(b "wc", .str (wcToString e.wc))]
  else []

/-- security/oc_ace.c:445-469 `oc_sec_encode_ace` to storage, with
`ace_encode_subject_resources` (:429-443). -/
def encodeAce (a : Ace) : Rep :=
  [(b "subject", .obj (encodeSubject a.subject))] ++
  (if a.resources.isEmpty then [] else [(b "resources", .objs (a.resources.map encodeEntry))]) ++
  [(b "permission", .int a.permission.toNat), (b "aceid", .int a.aceid)] ++
  (match a.tag with
   | some (c :: t) => [(b "tag", .str (c :: t))]
   | _ => [])

/-- security/oc_acl.c:112-143 `oc_sec_encode_acl` to storage, after the properties
of the baseline interface (`base`). An empty array is decoded to `arr`. -/
def encodeAcl (base : Rep) (st : AclState) : Rep :=
  base ++ [(b "aclist2", if st.aces.isEmpty then .arr else .objs (st.aces.map encodeAce)),
    (b "rowneruuid", .str (Sec.uuidText st.owner))]

end Verif.Acl
