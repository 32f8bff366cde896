import Verif.Common

/-!
Specification of the CoAP option wire format (RFC 7252 section 3.1, RFC 7959
section 2.2), independent of the model.
-/

namespace Verif.Coap.Spec

/-- Big-endian value of a byte string. -/
def beVal : List UInt8 → Nat
  | [] => 0
  | b :: t => b.toNat * 256 ^ t.length + beVal t

/-- The wire form of one option with small, one byte or two byte delta and
length (RFC 7252 section 3.1): `Wire d l hdr` says that `hdr` is an option
header announcing delta `d` and length `l`. -/
inductive Ext : Nat → Nat → List UInt8 → Prop
  | small (v : Nat) (h : v < 13) : Ext v v []
  | one (b : UInt8) : Ext (b.toNat + 13) 13 [b]
  | two (b0 b1 : UInt8) : Ext (b0.toNat * 256 + b1.toNat + 269) 14 [b0, b1]

/-- Option header of RFC 7252 section 3.1. -/
def Wire (d l : Nat) (hdr : List UInt8) : Prop :=
  ∃ (nd nl : Nat) (ed el : List UInt8) (b : UInt8), Ext d nd ed ∧ Ext l nl el ∧
    b.toNat = nd * 16 + nl ∧ hdr = b :: (ed ++ el)

/-- A sequence of options (number, value) on the wire, the first relative to
option number `prev` (RFC 7252 section 3.1). -/
inductive OptSeq : Nat → List (Nat × List UInt8) → List UInt8 → Prop
  | nil (prev : Nat) : OptSeq prev [] []
  | cons (prev num : Nat) (v hdr : List UInt8) (rest : List (Nat × List UInt8)) (bs : List UInt8)
      (hle : prev ≤ num) (hw : Wire (num - prev) v.length hdr) (hr : OptSeq num rest bs) :
      OptSeq prev ((num, v) :: rest) (hdr ++ (v ++ bs))

/-- Segments joined with a separator. -/
def joinSegs (sep : UInt8) : List (List UInt8) → List UInt8
  | [] => []
  | [s] => s
  | s :: t => s ++ sep :: joinSegs sep t

end Verif.Coap.Spec
