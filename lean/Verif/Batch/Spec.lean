/-
What the properties of batch notifications are stated with.
-/
import Verif.Batch.Model

namespace Verif.Batch

/-- The resource a client finds under a uri now: its number and version. -/
def cur (s : St) (u : Bytes) : Option (Nat × Nat) :=
  (s.res.find? fun r => r.listed && r.uri == u).map fun r => (r.id, r.ver)

/-- What an observer believes a uri to hold: the last it was told, nothing if it
was told nothing. -/
def view (log : List Item) (o : Nat) (u : Bytes) : Option (Nat × Nat) :=
  ((log.filter fun i => i.obs == o && i.uri == u).getLast?.map (·.what)).getD none

/-- The states reachable by steps that `allow` admits. -/
inductive Reach (env : Env) (allow : St → Luck → Op → Prop) : St → Prop where
  | init : Reach env allow init
  | step {s s' : St} {l : Luck} {op : Op} :
      Reach env allow s → allow s l op → step env s l op = .ok s' → Reach env allow s'

/-- The preconditions: uris of at most 256 bytes, and changes are told of listed
resources only. Anything may fail. -/
def safe (s : St) (_ : Luck) (op : Op) : Prop :=
  match op with
  | .create u => u.length ≤ 256
  | .change i => ∃ r ∈ s.res, r.id = i ∧ r.listed = true
  | _ => True

/-- Nothing fails: every allocation succeeds and every payload fits (it may need
blocks). -/
def lucky (l : Luck) : Prop :=
  (∀ i, l.entry i = true) ∧ l.work = true ∧ (∀ i, l.fits i = true) ∧ (∀ i, l.rbuf i = true) ∧
    ∀ i, l.tx i = true

/-- `safe`, nothing fails, uris are not empty, and no plain answer is sent in
blocks to an observer. -/
def good (s : St) (l : Luck) (op : Op) : Prop :=
  safe s l op ∧ lucky l ∧
    match op with
    | .create u => u ≠ []
    | .xferStart _ => False
    | _ => True

/-- Luck without a failure, everything in one message. -/
def fair : Luck := ⟨fun _ => true, true, fun _ => true, fun _ => false, fun _ => true, fun _ => true⟩

/-- Everybody may see everything. -/
def openEnv : Env := ⟨fun _ _ => true, fun _ _ => true⟩

end Verif.Batch
