import Verif.Model.Basic
/-!
# The buffered writer

Source: `util/src/log.c`.
-/
namespace Flo

/-- A write buffer (`flo_WriteBuffer`, `util/include/flo/util/log.h:20-25`) together with the file it writes
to.  `data` are the `len` bytes in use; `sink` are the bytes the kernel has accepted so far; `sched` is what
the successive calls of `write(2)` will return: `none` an error (negative return), `some k` a short write of at
most `k` bytes (a call never reports more than it was given).  When `sched` is used up, `write` accepts everything. -/
structure WBuf where
  cap : Nat
  data : Str
  sink : Str
  sched : List (Option Nat)
  deriving DecidableEq, Repr

/-- The loop of `flo_flushBuffer`, `util/src/log.c:20-30`.  `todo` are the bytes from `bytesWritten` on.
Result: (completed?, sink, remaining schedule).  On an error the C code returns false and leaves `len`
unchanged, so the bytes already written stay in the buffer as well. -/
def flushLoop : Nat → Str → Str → List (Option Nat) → Out (Bool × Str × List (Option Nat))
  | 0, _, _, _ => .hang
  | f + 1, todo, sink, sched =>
    if todo.length > 0 then
      match sched with
      | [] => flushLoop f [] (sink ++ todo) []
      | none :: sched => .ok (false, sink, sched)
      | some k :: sched =>
        let k := min k todo.length
        flushLoop f (todo.drop k) (sink ++ todo.take k) sched
    else .ok (true, sink, sched)

/-- `flo_flushBuffer`, `util/src/log.c:19-35`. -/
def flushBuffer (b : WBuf) : Out (Bool × WBuf) := do
  let (done, sink, sched) ← flushLoop (b.data.length + b.sched.length + 1) b.data b.sink b.sched
  .ok (done, { b with sink := sink, sched := sched, data := if done then [] else b.data })

/-- A flush whose result is ignored (`flo_flushBuffer(buffer);` as a statement, `util/src/log.c:55,61,68,86,92,99`). -/
def flushIgnore (b : WBuf) : Out WBuf := do
  let r ← flushBuffer b
  .ok r.2

/-- The loop of `flo_appendToBuffer`, `util/src/log.c:76-88`; `todo` are the bytes from `bytesWritten` on.
The result of the flush is ignored, as in the source. -/
def appendLoop : Nat → Str → WBuf → Out WBuf
  | 0, _, _ => .hang
  | f + 1, todo, b =>
    if todo.length > 0 then
      let space := b.cap - b.data.length
      let k := min space todo.length
      let b := { b with data := b.data ++ todo.take k }
      let todo := todo.drop k
      if todo.length > 0 then do
        let b ← flushIgnore b
        appendLoop f todo b
      else appendLoop f todo b
    else .ok b

/-- Flags of the append functions: `FLO_NEWLINE`, `FLO_FLUSH`, `util/include/flo/util/log.h:17-18`. -/
structure LFlags where
  newline : Bool
  flush : Bool
  deriving DecidableEq, Repr

/-- Storing one byte at `array[len]` and incrementing `len` (`util/src/log.c:63-64,94-95`).  Storing it beyond the capacity
(possible after a failed flush) is undefined behaviour. -/
def putByte (ch : UInt8) (b : WBuf) : Out WBuf :=
  if b.data.length ≥ b.cap then .ub .oobIndex else .ok { b with data := b.data ++ [ch] }

/-- The newline flag, `util/src/log.c:59-65` and lines 90-96. -/
def applyNewline (b : WBuf) : Out WBuf := do
  let b ← (if b.data.length ≥ b.cap then flushIgnore b else .ok b)
  putByte cNl b

/-- The flag handling shared by `flo_appendToBuffer` (`util/src/log.c:90-100`) and
`flo_appendRepeatedCharToBuffer` (lines 59-69). -/
def applyFlags (fl : LFlags) (b : WBuf) : Out WBuf := do
  let b ← (if fl.newline then applyNewline b else .ok b)
  if fl.flush then flushIgnore b else .ok b

/-- `flo_appendToBuffer`, `util/src/log.c:74-103`.  The fuel covers every chunk plus every failing or
empty flush the schedule can produce. -/
def appendToBuffer (s : Str) (fl : LFlags) (b : WBuf) : Out WBuf := do
  let b ← appendLoop (s.length + b.sched.length + 2) s b
  applyFlags fl b

/-- `flo_appendRepeatedCharToBuffer`, `util/src/log.c:44-72`: the same loop with `memset` instead of `memcpy`. -/
def appendRepeated (ch : UInt8) (n : Nat) (fl : LFlags) (b : WBuf) : Out WBuf := do
  let b ← appendLoop (n + b.sched.length + 2) (List.replicate n ch) b
  applyFlags fl b

/-- `flo_appendToBufferMinSize`, `util/src/log.c:105-117`.  `written` is the 32-bit length of the data. -/
def appendMinSize (s : Str) (minSize : Nat) (fl : LFlags) (b : WBuf) : Out WBuf := do
  let b ← appendToBuffer s ⟨false, false⟩ b
  let written := s.length % 2 ^ 32
  if written ≥ minSize then appendToBuffer [] fl b
  else appendRepeated cSp (minSize - written) fl b

/-- The digit loop of `flo_appendUint64`, `util/src/log.c:197-199`: `do { *--beg = '0' + data % 10; } while
(data /= 10)`.  `acc` are the characters from `beg` on. -/
def digitsLoop : Nat → Nat → Str → Out Str
  | 0, _, _ => .hang
  | f + 1, n, acc =>
    let acc := UInt8.ofNat (48 + n % 10) :: acc
    if n / 10 ≠ 0 then digitsLoop f (n / 10) acc else .ok acc

/-- `flo_appendUint64`, `util/src/log.c:192-201`: the text appended.  `tmp` has 64 bytes, the fuel; running out
of it would be a write before `tmp`. -/
def uint64Text (n : UInt64) : Out Str := digitsLoop 64 n.toNat []

/-- The digit loop of `flo_appendPtrdiff`, `util/src/log.c:209-211`, on `t ≤ 0` with C's truncating division:
`'0' - (t % 10)`. -/
def ptrdiffLoop : Nat → Int → Str → Out Str
  | 0, _, _ => .hang
  | f + 1, t, acc =>
    let acc := UInt8.ofNat (48 - t.tmod 10).toNat :: acc
    if t.tdiv 10 ≠ 0 then ptrdiffLoop f (t.tdiv 10) acc else .ok acc

/-- `flo_appendPtrdiff`, `util/src/log.c:203-216`, for the value of a 64-bit signed integer (negating a
positive one cannot overflow). -/
def ptrdiffText (v : Int) : Out Str := do
  let t := if v > 0 then -v else v
  let s ← ptrdiffLoop 63 t []
  .ok (if v < 0 then cDash :: s else s)

/-- `FLO_LOG_DATA` on an `int` or `short`, `util/include/flo/util/log.h:85-102` (`int: flo_appendUint64`): the value
is converted to `uint64_t`. -/
def intText (v : Int) : Out Str := uint64Text (UInt64.ofNat (v % 2 ^ 64).toNat)

/-- The hexadecimal digit `"0123456789abcdef"[x]`, `util/src/log.c:185`. -/
def hexDigit (x : Nat) : UInt8 := if x < 10 then UInt8.ofNat (48 + x) else UInt8.ofNat (87 + x)

/-- `flo_appendPtr`, `util/src/log.c:176-190`: sixteen digits are produced (`i` from 15 down to 0), but the
string handed on has length `counter - 1`, one less than what was written. -/
def ptrText (u : UInt64) : Str :=
  let tmp := b!"0x" ++ ((List.range 16).reverse.map (fun i => hexDigit ((u.toNat / 2 ^ (4 * i)) % 16)))
  tmp.take (tmp.length - 1)

/-- `flo_appendBool`, `util/src/log.c:164-168`. -/
def boolText (b : Bool) : Str := if b then b!"true" else b!"false"

/-- `flo_appendUint64`, `util/src/log.c:192-201`. -/
def appendUint64 (n : UInt64) (fl : LFlags) (b : WBuf) : Out WBuf := do
  let t ← uint64Text n
  appendToBuffer t fl b

/-- `flo_appendPtrdiff`, `util/src/log.c:203-216`. -/
def appendPtrdiff (v : Int) (fl : LFlags) (b : WBuf) : Out WBuf := do
  let t ← ptrdiffText v
  appendToBuffer t fl b

/-- `flo_appendUint64ToBufferMinSize`, `util/src/log.c:140-153`: `flo_appendUint64` returns the number of characters. -/
def appendUint64MinSize (n : UInt64) (minSize : Nat) (fl : LFlags) (b : WBuf) : Out WBuf := do
  let t ← uint64Text n
  appendMinSize t minSize fl b

/-- `flo_appendPtrDiffToBufferMinSize`, `util/src/log.c:250-262`. -/
def appendPtrdiffMinSize (v : Int) (minSize : Nat) (fl : LFlags) (b : WBuf) : Out WBuf := do
  let t ← ptrdiffText v
  appendMinSize t minSize fl b

/-- `FLO_LOG_DATA` on an `int` or `short` value, `util/include/flo/util/log.h:98-99`. -/
def appendInt (v : Int) (fl : LFlags) (b : WBuf) : Out WBuf := do
  let t ← intText v
  appendToBuffer t fl b

/-- The part of `flo_appendDouble` after the decimal point, `util/src/log.c:239-247`: `counter` zeros, one for each
of `100000, 10000, 1000, 100, 10` that exceeds `fractional`, then `fractional`.  (The floating-point arithmetic in front of it
is not modelled.) -/
def fractionText (fractional : UInt64) : Out Str := do
  let counter := ([100000, 10000, 1000, 100, 10].filter (fun i => decide (i > fractional.toNat))).length
  let t ← uint64Text fractional
  .ok (List.replicate counter 48 ++ t)

end Flo
