import Verif.Dhcp.Model
import Verif.EpAddr.Spec
/-!
What the texts and the options of a DHCP server mean.
-/
namespace Verif.Dhcp

open Verif.EpAddr (Bytes)

/-- The digits of the hexadecimal system. -/
def lower : Bytes := [48, 49, 50, 51, 52, 53, 54, 55, 56, 57, 97, 98, 99, 100, 101, 102]

/-- The same with capital letters. -/
def upper : Bytes := [48, 49, 50, 51, 52, 53, 54, 55, 56, 57, 65, 66, 67, 68, 69, 70]

/-- The character `c` is a digit of value `d`. -/
def Digit (c : UInt8) (d : Nat) : Prop := lower[d]? = some c ∨ upper[d]? = some c

instance (c : UInt8) (d : Nat) : Decidable (Digit c d) := inferInstanceAs (Decidable (_ ∨ _))

/-- A text denotes a list of bytes: every byte is written with one or two digits; a
colon ends a byte and may be left out behind two digits and at the end.  A colon where
a byte should start stands for the byte 0. -/
inductive Reads : Bytes → List Nat → Prop
  | nil : Reads [] []
  | empty {t : Bytes} {r : List Nat} : Reads t r → Reads (58 :: t) (0 :: r)
  | last {a : UInt8} {d : Nat} : Digit a d → Reads [a] [d]
  | short {a : UInt8} {d : Nat} {t : Bytes} {r : List Nat} :
      Digit a d → Reads t r → Reads (a :: 58 :: t) (d :: r)
  | long {a b : UInt8} {d e : Nat} {t : Bytes} {r : List Nat} :
      Digit a d → Digit b e → Reads t r → Reads (a :: b :: 58 :: t) ((16 * d + e) :: r)
  | pair {a b : UInt8} {d e : Nat} {t : Bytes} {r : List Nat} :
      Digit a d → Digit b e → Reads t r → t.head? ≠ some 58 → Reads (a :: b :: t) ((16 * d + e) :: r)

/-- The two digits of a byte. -/
def two (v : UInt8) : Bytes := [lower.getD (v.toNat / 16) 0, lower.getD (v.toNat % 16) 0]

/-- The digits of a byte without a leading zero. -/
def brief (v : UInt8) : Bytes := if v.toNat < 16 then [lower.getD v.toNat 0] else two v

/-- The bytes in the form of the leases file of the ISC client: separated by colons,
without leading zeros. -/
def isc : List UInt8 → Bytes
  | [] => []
  | [v] => brief v
  | v :: l => brief v ++ 58 :: isc l

/-- An option of a DHCP server. -/
structure Opt where
  code : UInt8
  data : Bytes
  deriving DecidableEq, Repr

/-- The options as sent: code, length and data. -/
def enc : List Opt → Bytes
  | [] => []
  | o :: l => o.code :: UInt8.ofNat o.data.length :: (o.data ++ enc l)

/-- The client takes the option: its code is one of the three, and it has data. -/
def Takes (c : Codes) (o : Opt) : Prop :=
  (o.code = c.endpoint ∨ o.code = c.fingerprint ∨ o.code = c.md) ∧
  1 ≤ o.data.length ∧ o.data.length ≤ 255

/-- The data of the last option with a code. -/
def lastOf (code : UInt8) (os : List Opt) : Option Bytes :=
  ((os.filter fun o => o.code == code).getLast?).map (·.data)

/-- The options mean these values. -/
def Meant (c : Codes) (os : List Opt) (f : Found) : Prop :=
  f.endpoint = lastOf c.endpoint os ∧ f.fingerprint = lastOf c.fingerprint os ∧ f.md = lastOf c.md os

/-- The three codes differ. -/
def Distinct (c : Codes) : Prop :=
  c.endpoint ≠ c.fingerprint ∧ c.endpoint ≠ c.md ∧ c.fingerprint ≠ c.md

/-- The address of the server the client uses. -/
def current (x : Ctx) : Option Bytes :=
  ((EpAddr.servers x.eps).all[(EpAddr.servers x.eps).cur]?).map (·.1)

/-- A received buffer consists of these options; one more byte at the end is
ignored. -/
def Received (c : Codes) (opts : Bytes) (os : List Opt) : Prop :=
  ∃ tail : Bytes, tail.length ≤ 1 ∧ opts = enc os ++ tail ∧ ∀ o ∈ os, Takes c o

/-- The fingerprint and its algorithm can be used. -/
def FpOk (e : Env) (md : Nat) (fp : Option Bytes) : Prop :=
  md = 0 ∨ (e.allowed md = true ∧ e.mdSize md = some (fp.getD []).length)

end Verif.Dhcp
