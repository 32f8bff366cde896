import Verif.Endpoint.Model
/-!
What endpoint texts mean, independent of the code: RFC 3986 (URIs), RFC 4291 §2.2
(text of IPv6 addresses, forms 1 and 2), dotted decimal IPv4 addresses.
-/
namespace Verif.Endpoint

/-- A hexadecimal digit (RFC 4291 §2.2; no /repo counterpart). -/
def IsHex (c : UInt8) : Prop :=
  (48 ≤ c ∧ c ≤ 57) ∨ (97 ≤ c ∧ c ≤ 102) ∨ (65 ≤ c ∧ c ≤ 70)

instance (c : UInt8) : Decidable (IsHex c) := by unfold IsHex; infer_instance

/-- The value of a hexadecimal digit (no /repo counterpart). -/
def hexVal (c : UInt8) : Nat :=
  if c ≤ 57 then c.toNat - 48 else if c ≤ 70 then c.toNat - 55 else c.toNat - 87

/-- A group: one to four hexadecimal digits (RFC 4291 §2.2). -/
def IsGroup (g : Bytes) : Prop := 1 ≤ g.length ∧ g.length ≤ 4 ∧ ∀ c ∈ g, IsHex c

instance (g : Bytes) : Decidable (IsGroup g) := by unfold IsGroup; infer_instance

/-- The number a group stands for. -/
def groupVal (g : Bytes) : Nat := g.foldl (fun a c => 16 * a + hexVal c) 0

/-- The two bytes of a 16 bit group, most significant first. -/
def groupBytes (g : Bytes) : Bytes :=
  [UInt8.ofNat (groupVal g / 256), UInt8.ofNat (groupVal g % 256)]

/-- Groups separated by colons. -/
def joinC : List Bytes → Bytes
  | [] => []
  | [g] => g
  | g :: h :: gs => g ++ 58 :: joinC (h :: gs)

/-- `IsV6 t a`: the text `t` stands for the 16 byte address `a`, RFC 4291 §2.2,
form 1 (eight groups) and form 2 (one "::" for one or more groups of zeros). -/
inductive IsV6 : Bytes → Bytes → Prop
  | full (gs : List Bytes) (hg : ∀ g ∈ gs, IsGroup g) (hn : gs.length = 8) :
      IsV6 (joinC gs) (gs.flatMap groupBytes)
  | short (l r : List Bytes) (hl : ∀ g ∈ l, IsGroup g) (hr : ∀ g ∈ r, IsGroup g)
      (hn : l.length + r.length ≤ 7) :
      IsV6 (joinC l ++ 58 :: 58 :: joinC r)
        (l.flatMap groupBytes ++ List.replicate (16 - 2 * (l.length + r.length)) 0 ++
          r.flatMap groupBytes)

/-- A nonempty text of decimal digits. -/
def IsNum (d : Bytes) : Prop := d ≠ [] ∧ ∀ c ∈ d, IsDigit c

/-- `IsV4 t a`: the dotted decimal text `t` stands for the four byte address `a`. -/
inductive IsV4 : Bytes → Bytes → Prop
  | quad (p q r s : Bytes) (hp : IsNum p) (hq : IsNum q) (hr : IsNum r) (hs : IsNum s)
      (vp : decVal p ≤ 255) (vq : decVal q ≤ 255) (vr : decVal r ≤ 255) (vs : decVal s ≤ 255) :
      IsV4 (p ++ 46 :: (q ++ 46 :: (r ++ 46 :: s)))
        [UInt8.ofNat (decVal p), UInt8.ofNat (decVal q), UInt8.ofNat (decVal r),
          UInt8.ofNat (decVal s)]

/-- `IsHost t six a`: the host part `t` of a URI stands for an address, RFC 3986
§3.2.2; `a` is the address array of the endpoint (an IPv4 address followed by
zeros). -/
inductive IsHost : Bytes → Bool → Bytes → Prop
  | v4 (t a : Bytes) (h : IsV4 t a) : IsHost t false (a ++ List.replicate 12 0)
  | v6 (t a : Bytes) (h : IsV6 t a) : IsHost (91 :: (t ++ [93])) true a

/-- A host name as the code takes it: not empty, at most 254 bytes, without the
bytes that end it, not starting like an IPv6 address and ending with a letter. -/
def IsName (t : Bytes) : Prop :=
  t.length ≤ 254 ∧ 58 ∉ t ∧ 47 ∉ t ∧ t.head? ≠ some 91 ∧
    ∃ s c, t = s ++ [c] ∧ ((65 ≤ c ∧ c ≤ 90) ∨ (97 ≤ c ∧ c ≤ 122))

/-- `MeansHost dns f t six a`: the host text `t` is numeric, or a name the resolver
turns into a numeric text. -/
def MeansHost (dns : Option (Flags → Bytes → Option Bytes)) (f : Flags) (t : Bytes)
    (six : Bool) (a : Bytes) : Prop :=
  IsHost t six a ∨
    (IsName t ∧ ∃ look ip, dns = some look ∧ look f t = some ip ∧ IsHost ip six a)

/-- The text of a port: nothing, or a colon and digits. -/
def portText : Option Bytes → Bytes
  | none => []
  | some d => 58 :: d

/-- The port of a URI: the number given (of 16 bits), else the default of CoAP
(RFC 7252 §6.1, §6.2). -/
def portVal (secured : Bool) : Option Bytes → Nat
  | none => if secured then 5684 else 5683
  | some d => decVal d

/-- A port text the code can read: digits of a 16 bit number; a text of 2^64 digits
or more does not fit into memory. -/
def PortOk : Option Bytes → Prop
  | none => True
  | some d => IsNum d ∧ decVal d < 65536 ∧ d.length < 18446744073709551616

/-- A path: nothing or a text starting with a slash. -/
def PathOk (p : Bytes) : Prop := p = [] ∨ ∃ s, p = 47 :: s

/-- The scheme's flags of an endpoint. -/
def flagsOf (tcp secured : Bool) : Flags := { tcp := tcp, secured := secured }

/-- The endpoint a URI stands for: the scheme's flags, one kind of address, the port
and the address array; device and session are zero. -/
def epOf (tcp secured six : Bool) (port : UInt16) (bytes : Bytes) : Ep where
  flags := { tcp := tcp, secured := secured, ipv4 := !six, ipv6 := six }
  port := port
  bytes := bytes

/-- The bytes of an ASCII text. -/
def ascii (t : String) : Bytes := t.toList.map fun c => UInt8.ofNat c.toNat

/-- The four schemes of RFC 7252 §6 and RFC 8323 §8. -/
def schemeText (tcp secured : Bool) : Bytes :=
  match tcp, secured with
  | true, true => ascii "coaps+tcp://"
  | true, false => ascii "coap+tcp://"
  | false, true => ascii "coaps://"
  | false, false => ascii "coap://"

/-- The text of an endpoint: scheme, host, port; `ntop` makes the text of an IPv6
address. -/
def textOf (ntop : Bytes → Bytes) (e : Ep) : Bytes :=
  scheme e.flags ++
    ((if e.flags.ipv4 then quad e.bytes else 91 :: (ntop e.bytes ++ [93])) ++
      58 :: dec e.port.toNat)

end Verif.Endpoint
