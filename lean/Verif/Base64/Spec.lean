/-!
Independent specification of Base64 (RFC 4648, sections 4 and 5) as a statement
about bit streams.
-/
namespace Verif.Base64.Spec

/-- The `k` low bits of `v`, most significant first. -/
def bitsN (k v : Nat) : List Bool :=
  (List.range k).map fun i => v.testBit (k - 1 - i)

/-- Bit stream of a byte sequence, RFC 4648 section 4 ("24-bit groups"). -/
def byteStream (l : List UInt8) : List Bool := l.flatMap fun b => bitsN 8 b.toNat

/-- Bit stream of a sequence of 6 bit values. -/
def sextetStream (l : List Nat) : List Bool := l.flatMap (bitsN 6)

/-- RFC 4648 Table 1 (`url = false`) and Table 2 (`url = true`): the character
of a 6 bit value. -/
def alphaChar (url : Bool) (v : Nat) : Char :=
  if v < 26 then Char.ofNat ('A'.toNat + v)
  else if v < 52 then Char.ofNat ('a'.toNat + (v - 26))
  else if v < 62 then Char.ofNat ('0'.toNat + (v - 52))
  else if v = 62 then (if url then '-' else '+')
  else (if url then '_' else '/')

/-- Character codes as bytes. -/
def code (c : Char) : UInt8 := UInt8.ofNat c.toNat

/-- `IsEncoding url padding bytes text`: `text` is the canonical Base64 text of
`bytes`: the bits of `bytes`, completed by fewer than six zero bits to a
sequence of sextets, written in the alphabet, completed (with padding) by `=`
to a multiple of four characters. -/
def IsEncoding (url padding : Bool) (bytes text : List UInt8) : Prop :=
  ∃ vs : List Nat, ∃ z k : Nat,
    (∀ v ∈ vs, v < 64) ∧ z < 6 ∧
    sextetStream vs = byteStream bytes ++ List.replicate z false ∧
    text = vs.map (fun v => code (alphaChar url v)) ++ List.replicate k (code '=') ∧
    (if padding then (vs.length + k) % 4 = 0 ∧ k < 4 else k = 0)

/-- `Decodes url padding text bytes`: `text` is well formed and its bits start
with exactly the bits of `bytes`, fewer than eight bits being left over. -/
def Decodes (url padding : Bool) (text bytes : List UInt8) : Prop :=
  ∃ vs : List Nat, ∃ k : Nat, ∃ rest : List Bool,
    (∀ v ∈ vs, v < 64) ∧ rest.length < 6 ∧
    sextetStream vs = byteStream bytes ++ rest ∧
    text = vs.map (fun v => code (alphaChar url v)) ++ List.replicate k (code '=') ∧
    (if padding then (vs.length + k) % 4 = 0 ∧ k < 3 else k = 0)

end Verif.Base64.Spec
