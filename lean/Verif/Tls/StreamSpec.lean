/-!
Specification of the CoAP messages of a reliable transport, after RFC 8323
section 3.2, independent of the parser of the code.
-/

namespace Verif.Tls.Spec

/-- A message of CoAP over TCP: the first byte holds a length nibble and the
length of the token; the nibble is the number of bytes behind the token (options,
marker and payload), or 13, 14, 15 with 1, 2, 4 further bytes of length. -/
inductive Frame : List UInt8 → Prop where
  | short (code : UInt8) (token body : List UInt8) :
    token.length < 16 → body.length < 13 →
    Frame (UInt8.ofNat (body.length * 16 + token.length) :: code :: (token ++ body))
  | ext1 (code : UInt8) (token body : List UInt8) :
    token.length < 16 → 13 ≤ body.length → body.length < 269 →
    Frame (UInt8.ofNat (13 * 16 + token.length) :: UInt8.ofNat (body.length - 13) :: code ::
      (token ++ body))
  | ext2 (code : UInt8) (token body : List UInt8) :
    token.length < 16 → 269 ≤ body.length → body.length < 65805 →
    Frame (UInt8.ofNat (14 * 16 + token.length) :: UInt8.ofNat ((body.length - 269) / 256) ::
      UInt8.ofNat ((body.length - 269) % 256) :: code :: (token ++ body))
  | ext4 (code : UInt8) (token body : List UInt8) :
    token.length < 16 → 65805 ≤ body.length → body.length < 4295033101 →
    Frame (UInt8.ofNat (15 * 16 + token.length) :: UInt8.ofNat ((body.length - 65805) / 16777216) ::
      UInt8.ofNat ((body.length - 65805) / 65536 % 256) ::
      UInt8.ofNat ((body.length - 65805) / 256 % 256) ::
      UInt8.ofNat ((body.length - 65805) % 256) :: code :: (token ++ body))

end Verif.Tls.Spec
