import Verif.Model.Arena
import Verif.Model.Hash
/-!
# String helpers

Source: `util/include/flo/util/text/string.h`, `util/include/flo/util/hash/hashes.h`.

The searches only read one string and are modelled on its bytes, with every subscript checked (`charAt`); the
comparison, the copy and the concatenation are modelled on byte memory.  `FLO_ASSERT` is empty in release builds.
Loops run on fuel, `hang` if it does not suffice.
-/
namespace Flo

/-- A `flo_String` in memory, `util/include/flo/util/text/string.h:37-40`. -/
structure View where
  buf : Int
  len : Int
  deriving DecidableEq, Repr

/-- `!memcmp(p, q, n)`, `util/include/flo/util/text/string.h:44`: the bytes are compared in order up to the first difference. -/
def memSame (mem : Int → UInt8) : Nat → Int → Int → Bool
  | 0, _, _ => true
  | n + 1, p, q => if mem p = mem q then memSame mem n (p + 1) (q + 1) else false

/-- `flo_stringEquals`, `util/include/flo/util/text/string.h:42-45`. -/
def stringEquals (mem : Int → UInt8) (a b : View) : Bool :=
  a.len == b.len && memSame mem a.len.toNat a.buf b.buf

/-- `flo_stringCopy`, `util/include/flo/util/text/string.h:46-54`: also stores a zero byte behind the copy. -/
def stringCopy (dest src : View) (mem : Int → UInt8) : View × (Int → UInt8) :=
  (⟨dest.buf, src.len⟩, memWrite (dest.buf + src.len) [0] (memCopy dest.buf src.buf src.len mem))

/-- `FLO_STRING_APPEND`, `util/include/flo/util/text/string.h:26-35`. -/
def stringAppend (s1 s2 : View) (a : Arena) : Out (View × Arena) := do
  let (p, a) ← arenaAlloc 1 1 (s1.len + s2.len) false false a
  match p with
  | some p =>
    .ok (⟨p, s1.len + s2.len⟩, { a with mem := memCopy (p + s1.len) s2.buf s2.len (memCopy p s1.buf s1.len a.mem) })
  | none => .ub .nullDeref

/-- The loop of `flo_containsChar`, `util/include/flo/util/text/string.h:71-76`. -/
def containsCharLoop (s : Str) (ch : UInt8) : Nat → Int → Out Bool
  | 0, _ => .hang
  | f + 1, i =>
    if i < s.length then do
      let c ← charAt s i
      if c = ch then .ok true else containsCharLoop s ch f (i + 1)
    else .ok false

/-- `flo_containsChar`, `util/include/flo/util/text/string.h:69-77`. -/
def containsChar (s : Str) (ch : UInt8) : Out Bool := containsCharLoop s ch (s.length + 1) 0

/-- The loop of `flo_splitString`, `util/include/flo/util/text/string.h:83-90`. -/
def splitStringLoop (s : Str) (token : UInt8) (start : Int) : Nat → Int → Out Str
  | 0, _ => .hang
  | f + 1, i =>
    if i < s.length then do
      let c ← charAt s i
      if c = token then subStr s start (i - start) else splitStringLoop s token start f (i + 1)
    else subStr s start (s.length - start)

/-- `flo_splitString`, `util/include/flo/util/text/string.h:79-91`. -/
def splitString (s : Str) (token : UInt8) (start : Int) : Out Str := splitStringLoop s token start (s.length + 1) start

/-- The loop of `flo_firstOccurenceOfFrom`, `util/include/flo/util/text/string.h:97-102`. -/
def firstOccLoop (s : Str) (ch : UInt8) : Nat → Int → Out Int
  | 0, _ => .hang
  | f + 1, i =>
    if i < s.length then do
      let c ← charAt s i
      if c = ch then .ok i else firstOccLoop s ch f (i + 1)
    else .ok (-1)

/-- `flo_firstOccurenceOfFrom`, `util/include/flo/util/text/string.h:93-103`. -/
def firstOccurenceOfFrom (s : Str) (ch : UInt8) (start : Int) : Out Int := firstOccLoop s ch (s.length + 1) start

/-- `flo_firstOccurenceOf`, `util/include/flo/util/text/string.h:104-107`. -/
def firstOccurenceOf (s : Str) (ch : UInt8) : Out Int := firstOccurenceOfFrom s ch 0

/-- The loop of `flo_lastOccurenceOf`, `util/include/flo/util/text/string.h:111-116`. -/
def lastOccLoop (s : Str) (ch : UInt8) : Nat → Int → Out Int
  | 0, _ => .hang
  | f + 1, i =>
    if i ≥ 0 then do
      let c ← charAt s i
      if c = ch then .ok i else lastOccLoop s ch f (i - 1)
    else .ok (-1)

/-- `flo_lastOccurenceOf`, `util/include/flo/util/text/string.h:109-117`. -/
def lastOccurenceOf (s : Str) (ch : UInt8) : Out Int := lastOccLoop s ch (s.length + 1) (s.length - 1)

/-- The loop of `flo_hashStringDjb2`, `util/include/flo/util/hash/hashes.h:28-33`, index by index. -/
def djb2Loop (s : Str) : Nat → Int → UInt64 → Out UInt64
  | 0, _, _ => .hang
  | f + 1, i, h =>
    if i < s.length then do
      let c ← charAt s i
      djb2Loop s f (i + 1) (djb2Step h c)
    else .ok h

/-- `flo_hashStringDjb2`, `util/include/flo/util/hash/hashes.h:26-36`, index by index. -/
def stringDjb2 (s : Str) : Out UInt64 := djb2Loop s (s.length + 1) 0 5381

/-- The loop of `flo_hashStringSkeeto`, `util/include/flo/util/hash/hashes.h:17-20`, index by index. -/
def skeetoLoop (s : Str) : Nat → Int → UInt64 → Out UInt64
  | 0, _, _ => .hang
  | f + 1, i, h =>
    if i < s.length then do
      let c ← charAt s i
      skeetoLoop s f (i + 1) ((h ^^^ c.toUInt64) * 1111111111111111111)
    else .ok h

/-- `flo_hashStringSkeeto`, `util/include/flo/util/hash/hashes.h:14-22`, index by index. -/
def stringSkeeto (s : Str) : Out UInt64 := skeetoLoop s (s.length + 1) 0 0x100

end Flo
