import Verif.Model.Log
/-!
# Vocabulary for the buffered writer (C43, C44, C57, C60)
-/
namespace Flo.Spec

/-- The operations of the writer. -/
inductive LogOp
  | append (s : Str) (fl : LFlags)
  | repeated (ch : UInt8) (n : Nat) (fl : LFlags)
  | minSize (s : Str) (k : UInt8) (fl : LFlags)
  | flush

/-- The end of line a flag asks for. -/
def lineEnd (fl : LFlags) : Str := if fl.newline then b!"\n" else []

/-- The text an operation is to output. -/
def LogOp.text : LogOp → Str
  | .append s fl => s ++ lineEnd fl
  | .repeated ch n fl => List.replicate n ch ++ lineEnd fl
  | .minSize s k fl => s ++ List.replicate (k.toNat - s.length) 32 ++ lineEnd fl
  | .flush => []

/-- Does it ask for an end of line? -/
def LogOp.newline : LogOp → Bool
  | .append _ fl | .repeated _ _ fl | .minSize _ _ fl => fl.newline
  | .flush => false

/-- Executing one operation. -/
def runLog : LogOp → WBuf → Out WBuf
  | .append s fl, b => appendToBuffer s fl b
  | .repeated ch n fl, b => appendRepeated ch n fl b
  | .minSize s k fl, b => appendMinSize s k.toNat fl b
  | .flush, b => flushIgnore b

/-- Executing a sequence of operations. -/
def runLogs : List LogOp → WBuf → Out WBuf
  | [], b => .ok b
  | op :: ops, b => do
    let b ← runLog op b
    runLogs ops b

/-- No call of `write` will report an error (but any of them may write less than asked, or nothing). -/
def NoErrors (sched : List (Option Nat)) : Prop := ∀ r ∈ sched, r ≠ none

/-- The value of a string of decimal digits. -/
def decValue : Str → Nat := List.foldl (fun acc c => 10 * acc + (c.toNat - 48)) 0

/-- `s` is the decimal representation of `n`: digits only, the right value, no superfluous zero in front. -/
def IsDecimal (s : Str) (n : Nat) : Prop :=
  s ≠ [] ∧ (∀ c ∈ s, 48 ≤ c.toNat ∧ c.toNat ≤ 57) ∧ decValue s = n ∧ (s.head? = some 48 → s = [48])

/-- `s` is the decimal representation of the integer `v`. -/
def IsDecimalInt (s : Str) (v : Int) : Prop :=
  (0 ≤ v ∧ IsDecimal s v.toNat) ∨ (v < 0 ∧ ∃ t, s = 45 :: t ∧ IsDecimal t (-v).toNat)

/-- The number a hexadecimal digit stands for. -/
def hexVal (c : UInt8) : Nat := if c.toNat ≤ 57 then c.toNat - 48 else c.toNat - 87

/-- The value of a string of hexadecimal digits. -/
def hexValue : Str → Nat := List.foldl (fun acc c => 16 * acc + hexVal c) 0

/-- A lower-case hexadecimal digit. -/
def IsHex (c : UInt8) : Prop := (48 ≤ c.toNat ∧ c.toNat ≤ 57) ∨ (97 ≤ c.toNat ∧ c.toNat ≤ 102)

/-- All bytes the writer has been given, in order: those delivered, then those still in the buffer. -/
def written (b : WBuf) : Str := b.sink ++ b.data

/-- Spaces that fill `s` up to `k` characters. -/
def pad (s : Str) (k : Nat) : Str := List.replicate (k - s.length) 32

end Flo.Spec
