import Verif.Tls.HsModel

/-!
Specification of the set-up of handshakes in terms of the calls of the
application and of the network.
-/

namespace Verif.Tls.Spec

open Verif.Acl (Dos Id)

/-- A connection is set up: there is none with this endpoint, there is memory, and
while the ownership is transferred a method was selected and no other connection
exists. -/
def SetsUp : HsOp → Prop
  | .peer d n e a _ _ => e = false ∧ a = true ∧ (d.dos = .rfotm → d.oxmsel ≠ 4 ∧ n = 0)
  | _ => False

instance (op : HsOp) : Decidable (SetsUp op) := by
  cases op <;> simp only [SetsUp] <;> infer_instance

/-- What an operation does to the choice of cipher suites. -/
def choose (c : Option Prio) : HsOp → Option Prio
  | .select p => some p
  | .reset => none
  | op => if SetsUp op then none else c

/-- The choice of cipher suites in force after a history: the last one made since
the last connection was set up or the choice was taken back. -/
def chosen (h : List HsOp) : Option Prio := h.foldl choose none

/-- What an operation does to the choice of the own identity certificate. -/
def chooseIdent (c : Option Int) : HsOp → Option Int
  | .selectIdent i => some i
  | op => if SetsUp op then none else c

/-- The choice of the own identity certificate in force after a history. -/
def chosenIdent (h : List HsOp) : Option Int := h.foldl chooseIdent none

/-- The PIN in force after a history: the last one generated. -/
def lastPin (h : List HsOp) : List UInt8 :=
  h.foldl (fun c op => match op with | .newPin p => p | _ => c) (List.replicate 8 0)

/-- The suites of a method for the transfer of ownership: anonymous for "just
works", a pre-shared key for the random PIN, certificates for manufacturer
certificates. -/
def Otm (oxmsel : Int) (l : List Suite) : Prop :=
  (oxmsel = 0 → l = [.anonCbc]) ∧ (oxmsel = 1 → l = [.pskCbc]) ∧
  (oxmsel = 2 → ∀ s ∈ l, s = .ecdsa128Ccm8 ∨ s = .ecdsa128Ccm ∨ s = .ecdsa256Ccm8 ∨ s = .ecdsa256Ccm)

end Verif.Tls.Spec
