import Verif.Model.Log
/-!
# What the append functions return

Sources: `util/src/log.c:44-267`.  The functions of `Model/Log.lean` with their return values, and the remaining append
functions.
-/
namespace Flo

/-- `flo_appendRepeatedCharToBuffer`, `util/src/log.c:44-72`: `return true;`, converted to `uint32_t`. -/
def appendRepeatedR (ch : UInt8) (n : Nat) (fl : LFlags) (b : WBuf) : Out (Nat × WBuf) := do
  let b ← appendRepeated ch n fl b
  .ok (1, b)

/-- `flo_appendToBuffer`, `util/src/log.c:74-103`: `return (uint32_t)data.len;`. -/
def appendToBufferR (s : Str) (fl : LFlags) (b : WBuf) : Out (Nat × WBuf) := do
  let b ← appendToBuffer s fl b
  .ok (s.length % 2 ^ 32, b)

/-- The part of the three `…MinSize` functions after the text has been appended, `util/src/log.c:110-116,146-152,255-261`.
(`minSize` is an `unsigned char`.) -/
def padR (minSize : Nat) (fl : LFlags) (r : Nat × WBuf) : Out (Nat × WBuf) :=
  if r.1 ≥ minSize then do
    let b ← appendToBuffer [] fl r.2
    .ok (r.1, b)
  else appendRepeatedR cSp (minSize - r.1) fl r.2

/-- `flo_appendToBufferMinSize`, `util/src/log.c:105-117`. -/
def appendMinSizeR (s : Str) (minSize : Nat) (fl : LFlags) (b : WBuf) : Out (Nat × WBuf) := do
  let r ← appendToBufferR s ⟨false, false⟩ b
  padR minSize fl r

/-- `flo_appendUint64`, `util/src/log.c:192-201`. -/
def appendUint64R (n : UInt64) (fl : LFlags) (b : WBuf) : Out (Nat × WBuf) := do
  let t ← uint64Text n
  appendToBufferR t fl b

/-- `flo_appendPtrdiff`, `util/src/log.c:203-216`. -/
def appendPtrdiffR (v : Int) (fl : LFlags) (b : WBuf) : Out (Nat × WBuf) := do
  let t ← ptrdiffText v
  appendToBufferR t fl b

/-- `flo_appendUint64ToBufferMinSize`, `util/src/log.c:140-152`. -/
def appendUint64MinSizeR (n : UInt64) (minSize : Nat) (fl : LFlags) (b : WBuf) : Out (Nat × WBuf) := do
  let r ← appendUint64R n ⟨false, false⟩ b
  padR minSize fl r

/-- `flo_appendPtrDiffToBufferMinSize`, `util/src/log.c:250-262`. -/
def appendPtrdiffMinSizeR (v : Int) (minSize : Nat) (fl : LFlags) (b : WBuf) : Out (Nat × WBuf) := do
  let r ← appendPtrdiffR v ⟨false, false⟩ b
  padR minSize fl r

/-- `flo_appendCStr`, `util/src/log.c:154-162`: NULL (`none`), or the memory the pointer points to, up to the end of the
object; `strlen` runs out of it if there is no terminator. -/
def appendCStrR (data : Option Str) (fl : LFlags) (b : WBuf) : Out (Nat × WBuf) :=
  match data with
  | none => .ok (0, b)
  | some mem => if 0 ∈ mem then appendToBufferR (mem.takeWhile (· ≠ 0)) fl b else .ub .oobRead

/-- `flo_appendBool`, `util/src/log.c:164-168`. -/
def appendBoolR (v : Bool) (fl : LFlags) (b : WBuf) : Out (Nat × WBuf) := appendToBufferR (boolText v) fl b

/-- `flo_appendChar`, `util/src/log.c:170-174`. -/
def appendCharR (c : UInt8) (fl : LFlags) (b : WBuf) : Out (Nat × WBuf) := appendToBufferR [c] fl b

/-- `flo_appendPtr`, `util/src/log.c:176-190`. -/
def appendPtrR (u : UInt64) (fl : LFlags) (b : WBuf) : Out (Nat × WBuf) := appendToBufferR (ptrText u) fl b

/-- `flo_AnsiColor`, `util/include/flo/util/log.h:28-37`. -/
inductive AnsiColor
  | red | green | yellow | blue | magenta | cyan | reset
  deriving DecidableEq, Repr

/-- `flo_ansiColorToCode`, `util/src/log.c:119-123`. -/
def ansiColorToCode : List Str :=
  [27 :: b!"[31m", 27 :: b!"[32m", 27 :: b!"[33m", 27 :: b!"[34m", 27 :: b!"[35m", 27 :: b!"[36m", 27 :: b!"[0m"]

/-- The value of the enumerator, `util/include/flo/util/log.h:28-37`. -/
def AnsiColor.index : AnsiColor → Nat
  | .red => 0 | .green => 1 | .yellow => 2 | .blue => 3 | .magenta => 4 | .cyan => 5 | .reset => 6

/-- `flo_appendColor`, `util/src/log.c:125-131`; `tty` is what `isatty` says about the file. -/
def appendColorR (tty : Bool) (c : AnsiColor) (b : WBuf) : Out (Nat × WBuf) :=
  if tty then
    match ansiColorToCode[c.index]? with
    | some s => appendToBufferR s ⟨false, false⟩ b
    | none => .ub .oobIndex
  else appendToBufferR [] ⟨false, false⟩ b

/-- `flo_appendColorReset`, `util/src/log.c:132-138`. -/
def appendColorResetR (tty : Bool) (b : WBuf) : Out (Nat × WBuf) := appendColorR tty .reset b

/-- What the floating-point arithmetic of `flo_appendDouble` yields, `util/src/log.c:222-233`: the sign (`data < 0`), and either
"out of range" or the two integers.  The arithmetic itself is not modelled. -/
structure DoubleParts where
  negative : Bool
  /-- `none`: `data >= (double)(-1UL >> 1)`; otherwise `integral` and `fractional`. -/
  parts : Option (UInt64 × UInt64)

/-- The counter of leading zeros, `util/src/log.c:238-243`. -/
def zeroCounter (fractional : UInt64) : Nat :=
  ([100000, 10000, 1000, 100, 10].filter (fun i => decide (i > fractional.toNat))).length

/-- `flo_appendDouble`, `util/src/log.c:218-248`, after the floating-point arithmetic. -/
def appendDoubleR (p : DoubleParts) (fl : LFlags) (b : WBuf) : Out (Nat × WBuf) := do
  let r ← (if p.negative then appendCharR cDash ⟨false, false⟩ b else .ok (0, b))
  match p.parts with
  | none => do
    let s ← appendToBufferR b!"inf" fl r.2
    .ok (r.1 + s.1, s.2)
  | some (integral, fractional) => do
    let s ← appendUint64R integral ⟨false, false⟩ r.2
    let t ← appendCharR 46 ⟨false, false⟩ s.2
    let u ← appendRepeatedR 48 (zeroCounter fractional) ⟨false, false⟩ t.2
    let v ← appendUint64R fractional fl u.2
    .ok (r.1 + s.1 + t.1 + u.1 + v.1, v.2)

end Flo
