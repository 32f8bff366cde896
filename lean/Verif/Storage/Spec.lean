import Verif.Storage.Model
/-! Specification of the persistent storage, independent of the code: which
directory a path names, under which name data is kept, and what a file can
contain after a history of saves, failures and losses of power. -/
namespace Verif.Storage.Spec

/-- `t` is the text of the directory named by the path `p`: trailing slashes do
not matter; the text ends in one slash. -/
def Dir (p t : Bytes) : Prop :=
  ∃ q k, p = q ++ List.replicate k 47 ∧ q.getLast? ≠ some 47 ∧ t = q ++ [47]

/-- The last component of the path is a single character. -/
def SingleChar (p : Bytes) : Prop := ∃ q c, p = q ++ [47, c] ∧ c ≠ 47

/-- A name and a device index. -/
abbrev Key := Bytes × Nat

/-- The file name of stored data. -/
def tag (k : Key) : Bytes := k.1 ++ 95 :: dec k.2

/-- A name that is not truncated: a C string that leaves room for the device
index. -/
def Fits (k : Key) : Prop := 0 ∉ k.1 ∧ k.1 ≠ [] ∧ (tag k).length < 32

/-- One save or clear (`buf` empty) of a file, and whether it reported that all
bytes were written. -/
structure Ev where
  key : Key
  buf : Bytes
  done : Bool

/-- What the file of `k` may contain after the events (newest first): after a
completed save exactly what was saved; after one that failed or was cut short
any beginning of it, or what was there before. -/
def Poss (c0 : Key → Option Bytes) : List Ev → Key → Option Bytes → Prop
  | [], k, v => v = c0 k
  | e :: h, k, v =>
    if e.key ≠ k then Poss c0 h k v
    else if e.done then v = some e.buf
    else (∃ n, v = some (e.buf.take n)) ∨ Poss c0 h k v

end Verif.Storage.Spec
