import Verif.Spec.Status
import Verif.Model.LogReturn
/-!
# The append functions: output and return value (C80)
-/
namespace Flo.Spec

/-- The calls. -/
inductive LogCall
  | string (s : Str) (fl : LFlags)
  | cstr (p : Option Str) (fl : LFlags)
  | bool (v : Bool) (fl : LFlags)
  | char (c : UInt8) (fl : LFlags)
  | ptr (u : UInt64) (fl : LFlags)
  | uint64 (n : UInt64) (fl : LFlags)
  | ptrdiff (v : Int) (fl : LFlags)
  | repeated (ch : UInt8) (n : Nat) (fl : LFlags)
  | stringMin (s : Str) (k : UInt8) (fl : LFlags)
  | uint64Min (n : UInt64) (k : UInt8) (fl : LFlags)
  | ptrdiffMin (v : Int) (k : UInt8) (fl : LFlags)
  | color (tty : Bool) (c : AnsiColor)
  | colorReset (tty : Bool)
  | double (p : DoubleParts) (fl : LFlags)

/-- Executing a call. -/
def runCall : LogCall → WBuf → Out (Nat × WBuf)
  | .string s fl => appendToBufferR s fl
  | .cstr p fl => appendCStrR p fl
  | .bool v fl => appendBoolR v fl
  | .char c fl => appendCharR c fl
  | .ptr u fl => appendPtrR u fl
  | .uint64 n fl => appendUint64R n fl
  | .ptrdiff v fl => appendPtrdiffR v fl
  | .repeated ch n fl => appendRepeatedR ch n fl
  | .stringMin s k fl => appendMinSizeR s k.toNat fl
  | .uint64Min n k fl => appendUint64MinSizeR n k.toNat fl
  | .ptrdiffMin v k fl => appendPtrdiffMinSizeR v k.toNat fl
  | .color tty c => appendColorR tty c
  | .colorReset tty => appendColorResetR tty
  | .double p fl => appendDoubleR p fl

/-- Calls one after the other, with the values they return. -/
def runCalls : List LogCall → WBuf → Out (List Nat × WBuf)
  | [], b => .ok ([], b)
  | c :: cs, b => do
    let r ← runCall c b
    let rs ← runCalls cs r.2
    .ok (r.1 :: rs.1, rs.2)

/-- A decimal number with sign. -/
def decInt (v : Int) : Str := if v < 0 then b!"-" ++ dec (-v).toNat else dec v.toNat

/-- `k` hexadecimal digits of a number. -/
def hexDigits : Nat → Nat → Str
  | 0, _ => []
  | k + 1, n => hexDigits k (n / 16) ++ [if n % 16 < 10 then UInt8.ofNat (48 + n % 16) else UInt8.ofNat (87 + n % 16)]

/-- The escape sequences. -/
def colorCode : AnsiColor → Str
  | .red => 27 :: b!"[31m"
  | .green => 27 :: b!"[32m"
  | .yellow => 27 :: b!"[33m"
  | .blue => 27 :: b!"[34m"
  | .magenta => 27 :: b!"[35m"
  | .cyan => 27 :: b!"[36m"
  | .reset => 27 :: b!"[0m"

/-- Zeros that fill a fraction up to six digits. -/
def zeros (f : UInt64) : Nat := 6 - (dec f.toNat).length

/-- The text of a floating-point number: sign, integral part, point, six digits. -/
def doubleText (p : DoubleParts) : Str :=
  (if p.negative then b!"-" else []) ++
  match p.parts with
  | none => b!"inf"
  | some (i, f) => dec i.toNat ++ b!"." ++ List.replicate (zeros f) 48 ++ dec f.toNat

/-- The characters a call outputs, without the end of line.  (The last digit of a pointer is missing, C57.) -/
def LogCall.text : LogCall → Str
  | .string s _ => s
  | .cstr none _ => []
  | .cstr (some m) _ => m.takeWhile (· ≠ 0)
  | .bool v _ => if v then b!"true" else b!"false"
  | .char c _ => [c]
  | .ptr u _ => b!"0x" ++ hexDigits 15 (u.toNat / 16)
  | .uint64 n _ => dec n.toNat
  | .ptrdiff v _ => decInt v
  | .repeated ch n _ => List.replicate n ch
  | .stringMin s k _ => cell k.toNat s
  | .uint64Min n k _ => cell k.toNat (dec n.toNat)
  | .ptrdiffMin v k _ => cell k.toNat (decInt v)
  | .color tty c => if tty then colorCode c else []
  | .colorReset tty => if tty then colorCode .reset else []
  | .double p _ => doubleText p

/-- The end of line; for a NULL string there is none. -/
def LogCall.ending : LogCall → Str
  | .cstr none _ | .color _ _ | .colorReset _ => []
  | .string _ fl | .cstr (some _) fl | .bool _ fl | .char _ fl | .ptr _ fl | .uint64 _ fl | .ptrdiff _ fl | .repeated _ _ fl
  | .stringMin _ _ fl | .uint64Min _ _ fl | .ptrdiffMin _ _ fl | .double _ fl => lineEnd fl

/-- What a padding function returns. -/
def padded (n k : Nat) : Nat := if k ≤ n then n else 1

/-- What a call returns: the number of characters, except where something is repeated. -/
def LogCall.returned : LogCall → Nat
  | .repeated _ _ _ => 1
  | .stringMin s k _ => padded s.length k.toNat
  | .uint64Min n k _ => padded (dec n.toNat).length k.toNat
  | .ptrdiffMin v k _ => padded (decInt v).length k.toNat
  | .double ⟨s, some (i, f)⟩ _ => (if s then 1 else 0) + (dec i.toNat).length + 1 + 1 + (dec f.toNat).length
  | c => c.text.length

/-- The arguments are sensible: texts are shorter than 4 GiB, C strings are terminated, numbers have 64 bits, a fraction has
six digits. -/
def LogCall.Fits : LogCall → Prop
  | .string s _ | .stringMin s _ _ => s.length < 2 ^ 32
  | .cstr (some m) _ => 0 ∈ m ∧ m.length < 2 ^ 32
  | .ptrdiff v _ | .ptrdiffMin v _ _ => -2 ^ 63 ≤ v ∧ v < 2 ^ 63
  | .double ⟨_, some (_, f)⟩ _ => f.toNat < 10 ^ 6
  | _ => True

/-- The calls whose return value is the number of characters: nothing is repeated, or exactly one character is. -/
def LogCall.Counts : LogCall → Prop
  | .repeated _ n _ => n = 1
  | .stringMin s k _ => k.toNat ≤ s.length ∨ (s = [] ∧ k.toNat = 1)
  | .uint64Min n k _ => k.toNat ≤ (dec n.toNat).length
  | .ptrdiffMin v k _ => k.toNat ≤ (decInt v).length
  | .double ⟨_, some (_, f)⟩ _ => zeros f = 1
  | _ => True

end Flo.Spec
