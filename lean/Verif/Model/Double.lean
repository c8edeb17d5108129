import Verif.Model.LogReturn
import Mathlib.Data.Int.Log
import Mathlib.Data.Rat.Floor
import Mathlib.Algebra.Order.Field.Rat
/-!
# The floating-point arithmetic of `flo_appendDouble`

Source: `util/src/log.c:218-248`.  A `double` is IEEE 754 binary64 and every operation is rounded once, to the nearest `double`
with ties to even (x86-64 with SSE2; the CMake files do not ask for `-ffast-math`).  The two zeros are not distinguished: no
operation of the function can tell them apart (`-0.0 < 0` is false, `-0.0 + c` is `c`).
-/
namespace Flo

/-- The values of the C type `double`, used in `util/src/log.c:218-233`: a finite number, an infinity with its sign, or not a
number. -/
inductive Dbl
  | num (q : ℚ)
  | inf (negative : Bool)
  | nan

/-- The distance of neighbouring `double`s around `q > 0` (53 significant bits, smallest exponent -1074): part of the meaning
of the operations in `util/src/log.c:227-233`. -/
def ulp (q : ℚ) : ℚ := 2 ^ max (Int.log 2 q - 52) (-1074)

/-- The nearest integer, ties to even: part of the meaning of the operations in `util/src/log.c:227-233`. -/
def roundEven (q : ℚ) : ℤ :=
  if q - ⌊q⌋ < 1 / 2 then ⌊q⌋ else if 1 / 2 < q - ⌊q⌋ then ⌊q⌋ + 1 else if ⌊q⌋ % 2 = 0 then ⌊q⌋ else ⌊q⌋ + 1

/-- The nearest number with 53 significant bits to `q ≥ 0`: part of the meaning of the operations in
`util/src/log.c:227-233`. -/
def nearest (q : ℚ) : ℚ := roundEven (q / ulp q) * ulp q

/-- The `double` an exact result is rounded to, infinite from 2^1024 on: part of the meaning of the operations in
`util/src/log.c:227-233`. -/
def Dbl.round (q : ℚ) : Dbl :=
  if q < 0 then (if nearest (-q) < 2 ^ 1024 then .num (-nearest (-q)) else .inf true)
  else if nearest q < 2 ^ 1024 then .num (nearest q) else .inf false

/-- Unary minus, `util/src/log.c:225`. -/
def Dbl.neg : Dbl → Dbl
  | .num q => .num (-q)
  | .inf s => .inf (!s)
  | .nan => .nan

/-- Addition, `util/src/log.c:228`. -/
def Dbl.add : Dbl → Dbl → Dbl
  | .num a, .num b => .round (a + b)
  | .num _, .inf s => .inf s
  | .inf s, .num _ => .inf s
  | .inf s, .inf t => if s = t then .inf s else .nan
  | _, _ => .nan

/-- Subtraction, `util/src/log.c:234`. -/
def Dbl.sub (a b : Dbl) : Dbl := a.add b.neg

/-- Multiplication, `util/src/log.c:234` (the operands there are finite; other products are left as "not a number"). -/
def Dbl.mul : Dbl → Dbl → Dbl
  | .num a, .num b => .round (a * b)
  | _, _ => .nan

/-- Division, `util/src/log.c:228` (by a number that is not zero; the operands there are constants). -/
def Dbl.div : Dbl → Dbl → Dbl
  | .num a, .num b => .round (a / b)
  | _, _ => .nan

/-- `data < 0`, `util/src/log.c:223`. -/
def Dbl.isNeg : Dbl → Bool
  | .num q => q < 0
  | .inf s => s
  | .nan => false

/-- `a >= b` for a finite `b`, `util/src/log.c:229`. -/
def Dbl.ge : Dbl → Dbl → Bool
  | .num a, .num b => b ≤ a
  | .inf s, .num _ => !s
  | _, _ => false

/-- `(uint64_t)data`, `util/src/log.c:233-234`: the fraction is cut off; undefined if the result does not fit. -/
def Dbl.toU64 : Dbl → Out UInt64
  | .num q => if -1 < q ∧ q < 2 ^ 64 then .ok (UInt64.ofNat ⌊q⌋₊) else .ub .badConvert
  | _ => .ub .badConvert

/-- `(double)integral`, `util/src/log.c:234`, and `(double)prec`, lines 228 and 234. -/
def Dbl.ofU64 (n : UInt64) : Dbl := .round n.toNat

/-- The arithmetic of `flo_appendDouble`, `util/src/log.c:223-234`.  (The sign is appended between the steps; that does not
affect them.) -/
def splitDouble (data : Dbl) : Out DoubleParts := do
  let prec : UInt64 := 1000000
  let negative := data.isNeg
  let data := if negative then data.neg else data
  let data := data.add ((Dbl.num (1 / 2)).div (.ofU64 prec))
  if data.ge (.ofU64 ((18446744073709551615 : UInt64) >>> 1)) then .ok ⟨negative, none⟩
  else do
    let integral ← data.toU64
    let fractional ← ((data.sub (.ofU64 integral)).mul (.ofU64 prec)).toU64
    .ok ⟨negative, some (integral, fractional)⟩

/-- `flo_appendDouble`, `util/src/log.c:218-248`. -/
def appendDouble (data : Dbl) (fl : LFlags) (b : WBuf) : Out (Nat × WBuf) := do
  let p ← splitDouble data
  appendDoubleR p fl b

end Flo
