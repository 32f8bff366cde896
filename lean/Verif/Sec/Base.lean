import Verif.Acl.Model
import Verif.Uuid.Model

/-! Definitions shared by the models of the security resources. -/

namespace Verif.Sec

open Verif.Rep (Bytes b Val Rep)

/-- api/oc_uuid.c:120-128 `oc_str_to_uuid`: the UUID afterwards. The result of
the parser is ignored; a text with too few digits overwrites the UUID, one with
too many leaves it. -/
def strToUuid (old : Acl.Id) (s : Bytes) : Out Acl.Id := do
  match ← Uuid.ofStr ((s.takeWhile (· != 0)).take 37) with
  | (_, some u) => return u
  | (_, none) => return old

/-- api/oc_uuid.c:104-118 `oc_str_to_uuid_v1`: the UUID, if the text is accepted. -/
def parseUuid (s : Bytes) : Out (Option Acl.Id) := do
  match ← Uuid.ofStr s with
  | (some _, some u) => return some u
  | _ => return none

/-- `oc_uuid_to_str_v1` with a buffer of `OC_UUID_LEN` (37) bytes, which always
succeeds (Uuid.toStr_format). -/
def uuidText (u : Acl.Id) : Bytes := (Uuid.toStr u 37).getD []

/-- Conversion to `int` (32 bits; implementation-defined for values out of range,
modulo 2^32 with gcc and clang). -/
def toInt32 (i : Int) : Int := (BitVec.ofInt 32 i).toInt

theorem toInt32_small (k : Nat) (h : k ≤ intMax) : toInt32 k = k := by
  rw [toInt32, BitVec.toInt_ofInt]
  have key : ∀ n : Nat, 2 * k < n → Int.bmod (k : Int) n = k := by
    intro n h
    rw [Int.bmod_def]
    have : (k : Int) % (n : Int) = k := by
      rw [Int.emod_eq_of_lt] <;> omega
    rw [this]
    split <;> omega
  exact key _ (by simp only [intMax] at h; omega)

end Verif.Sec
