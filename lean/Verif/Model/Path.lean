import Verif.Model.Strings
/-!
# Creating the directories of a path

Source: `util/src/file/path.c`.

The working copy `dirPath` is the list of its bytes, every store is checked; the calls of `mkdir` are recorded by the
C strings they get.  `mkdir`'s results are ignored by the code.
-/
namespace Flo

/-- The C string at the start of a buffer (`util/src/file/path.c:20`): the bytes before the first zero byte. -/
def cString (buf : List UInt8) : Str := buf.takeWhile (· ≠ 0)

/-- `buf[i] = c`, `util/src/file/path.c:18-23`. -/
def storeByte (buf : List UInt8) (i : Int) (c : UInt8) : Out (List UInt8) :=
  if 0 ≤ i ∧ i < buf.length then .ok (buf.set i.toNat c) else .ub .oobIndex

/-- `mkdir(dirPath, …)`, `util/src/file/path.c:20`: the string ends at a zero byte inside the buffer. -/
def mkdirArg (buf : List UInt8) : Out Str := if 0 ∈ buf then .ok (cString buf) else .ub .oobRead

/-- The loop of `flo_createPath`, `util/src/file/path.c:17-26`; the result lists the arguments of `mkdir`. -/
def pathLoop (path : Str) : Nat → List UInt8 → Int → Out (List Str)
  | 0, _, _ => .hang
  | f + 1, buf, slash =>
    if slash > 0 then do
      let buf ← storeByte buf slash 0
      let arg ← mkdirArg buf
      let buf ← storeByte buf slash cSlash
      let next ← firstOccurenceOfFrom path cSlash (slash + 1)
      let rest ← pathLoop path f buf next
      .ok (arg :: rest)
    else .ok []

/-- `flo_createPath`, `util/src/file/path.c:8-28`: the directories `mkdir` is called on, in order. -/
def createPath (path : Str) (scratch : Arena) : Out (List Str) := do
  let slash ← firstOccurenceOfFrom path cSlash 0
  if slash ≥ 0 then do
    let _ ← arenaAlloc 1 1 (path.length + 1) false false scratch
    pathLoop path (path.length + 1) (path ++ [0]) slash
  else .ok []

end Flo
