import Verif.Model.Path
import Verif.Model.Log
import Verif.Model.Write
import Verif.Model.Query
/-!
# Files: reading, and writing the printed document

Sources: `util/src/file/read.c`, `src/dom/writing.c`, `src/dom/dom.c`, `src/dom/appendix.c`, `src/dom/prependix.c`,
`src/dom/replacement.c`.

The operating system is an argument: what `fopen` opens and what `ftell` and `fread` report, how many bytes each `write`
accepts.  Error messages on `stderr` are not modelled.
-/
namespace Flo

/-- `flo_FileStatus`, `util/include/flo/util/file/file-status.h:8-14`. -/
inductive FileStatus
  | success | cantOpen | cantAllocate | cantRead
  deriving DecidableEq, Repr

/-- A file opened for reading (`util/src/file/read.c:11-22`): the offset `ftell` reports after `fseek(SEEK_END)`, and the bytes `fread` delivers from
the start if asked for enough. -/
structure OpenFile where
  tell : Int
  data : Str
  deriving DecidableEq, Repr

/-- `fread` (`util/src/file/read.c:34`) of `n` bytes into the block of `room` bytes at `p`: the bytes delivered are stored; storing more than the
block holds is undefined behaviour. -/
def freadInto (f : OpenFile) (p room : Int) (n : Nat) (a : Arena) : Out (Int × Arena) :=
  let got := f.data.take n
  if 0 < got.length ∧ (got.length : Int) > room then .ub .oobIndex else .ok (got.length, { a with mem := memWrite p got a.mem })

/-- `flo_readFile`, `util/src/file/read.c:9-48`.  `none` means `fopen` fails.  The length passed to `fread` is converted to
`size_t`. -/
def readFile (file : Option OpenFile) (a : Arena) : Out (FileStatus × View × Arena) :=
  match file with
  | none => .ok (.cantOpen, ⟨0, 0⟩, a)
  | some f => do
    let (p, a) ← arenaAlloc 1 1 f.tell false true a
    match p with
    | none => .ok (.cantAllocate, ⟨0, 0⟩, a)
    | some p => do
      let (n, a) ← freadInto f p f.tell (f.tell % 2 ^ 64).toNat a
      if n ≠ f.tell then .ok (.cantRead, ⟨p, 0⟩, a) else .ok (.success, ⟨p, f.tell⟩, a)

/-- The bytes a string in memory denotes (`util/include/flo/util/text/string.h:37-40`). -/
def viewStr (v : View) (mem : Int → UInt8) : Str := (List.range v.len.toNat).map (fun (i : Nat) => mem (v.buf + (i : Int)))

/-- `flo_html_createDomFromFile`, `src/dom/dom.c:8-22`. -/
def createDomFromFile (file : Option OpenFile) (a : Arena) : Out (Option Dom) := do
  let (st, v, a) ← readFile file a
  if st ≠ .success then .ok none else createDom (viewStr v a.mem)

/-- `flo_html_appendHTMLFromFileWithQuery`, `src/dom/appendix.c:58-75`. -/
def appendHTMLFromFileWithQuery (junk : Nat → Out Bool) (pun : Nat → Nat) (css : Str) (file : Option OpenFile) (a : Arena)
    (d : Dom) : Out (Nat × Dom) := do
  let (st, v, a) ← readFile file a
  if st ≠ .success then .ok (0, d)
  else withQuery pun css (fun n d => appendHTML junk n (viewStr v a.mem) d) d

/-- `flo_html_prependHTMLFromFileWithQuery`, `src/dom/prependix.c:59-76`. -/
def prependHTMLFromFileWithQuery (junk : Nat → Out Bool) (pun : Nat → Nat) (css : Str) (file : Option OpenFile) (a : Arena)
    (d : Dom) : Out (Nat × Dom) := do
  let (st, v, a) ← readFile file a
  if st ≠ .success then .ok (0, d)
  else withQuery pun css (fun n d => prependHTML junk n (viewStr v a.mem) d) d

/-- `flo_html_replaceWithHTMLFromFileWithQuery`, `src/dom/replacement.c:59-76`. -/
def replaceWithHTMLFromFileWithQuery (junk : Nat → Out Bool) (pun : Nat → Nat) (css : Str) (file : Option OpenFile)
    (a : Arena) (d : Dom) : Out (Nat × Dom) := do
  let (st, v, a) ← readFile file a
  if st ≠ .success then .ok (0, d)
  else withQuery pun css (fun n d => replaceWithHTML junk n (viewStr v a.mem) d) d

/-! ## Printing into a write buffer -/

/-- `FLO_LOG_DATA(s, buffer)` for a string, `util/include/flo/util/log.h:85-108`. -/
def logStr (s : Str) (b : WBuf) : Out WBuf := appendToBuffer s ⟨false, false⟩ b

/-- The loop over `boolProps` in `printNode`, `src/dom/writing.c:36-43`. -/
def emitBools (n : Nat) (d : Dom) : List Row → WBuf → Out WBuf
  | [], b => .ok b
  | r :: rs, b =>
    if r.1 = n then do
      let b ← logStr b!" " b
      let t ← regAt d.boolReg r.2
      let b ← logStr t b
      emitBools n d rs b
    else emitBools n d rs b

/-- The loop over `props` in `printNode`, `src/dom/writing.c:45-55`. -/
def emitProps (n : Nat) (d : Dom) : List PropRow → WBuf → Out WBuf
  | [], b => .ok b
  | r :: rs, b =>
    if r.node = n then do
      let b ← logStr b!" " b
      let k ← regAt d.keyReg r.key
      let b ← logStr k b
      let b ← logStr b!"=\"" b
      let v ← regAt d.valReg r.value
      let b ← logStr v b
      let b ← logStr b!"\"" b
      emitProps n d rs b
    else emitProps n d rs b

/-- The child loops of `printNode`, `src/dom/writing.c:20-24,70-74`, and the top loops, lines 84-88 and 112-116. -/
def emitChildren (em : Nat → WBuf → Out WBuf) (d : Dom) : Nat → Nat → WBuf → Out WBuf
  | 0, _, _ => .hang
  | f + 1, c, b =>
    if c ≠ 0 then do
      let b ← em c b
      emitChildren em d f (getNext c d) b
    else .ok b

/-- The end of `printNode`, `src/dom/writing.c:57-78`; `children` prints the children. -/
def emitRest (children : WBuf → Out WBuf) (reg : Str × Bool) (b : WBuf) : Out WBuf :=
  if !reg.2 then logStr (if strEq reg.1 b!"!DOCTYPE" then b!">" else b!"/>") b
  else do
    let b ← logStr b!">" b
    let b ← children b
    let b ← logStr b!"</" b
    let b ← logStr reg.1 b
    logStr b!">" b

/-- `printNode`, `src/dom/writing.c:11-79`; the fuel bounds the recursion depth. -/
def emitNode (d : Dom) : Nat → Nat → WBuf → Out WBuf
  | 0, _, _ => .hang
  | f + 1, n, b => do
    let node ← d.node n
    match node.type with
    | .error => .ok b
    | .root => emitChildren (emitNode d f) d (d.nn.length + 2) (getFirstChild n d) b
    | .text => do
      let t ← node.getText
      logStr t b
    | _ => do
      let t ← node.docTag
      let reg ← regAt d.tagReg t
      let b ← logStr b!"<" b
      let b ← logStr reg.1 b
      let b ← emitBools n d d.boolProps b
      let b ← emitProps n d d.props b
      emitRest (emitChildren (emitNode d f) d (d.nn.length + 2) (getFirstChild n d)) reg b

/-- The loop over the root and its next siblings, `src/dom/writing.c:84-88,112-116`. -/
def emitDom (d : Dom) (b : WBuf) : Out WBuf :=
  emitChildren (emitNode d (d.nodes.length + 1)) d (d.nn.length + 2) rootID b

/-- `flo_html_printHTML`, `src/dom/writing.c:81-91`; `b` is the buffer of `stdout`.  `FLO_FLUSH_AFTER`
(`util/include/flo/util/log.h:130-131`) flushes at the end and ignores the result. -/
def printHTMLTo (d : Dom) (b : WBuf) : Out WBuf := do
  let b ← logStr b!"printing HTML...\n\n" b
  let b ← emitDom d b
  let b ← logStr b!"\n\n" b
  flushIgnore b

/-- What `flo_html_writeHTMLToFile` (`src/dom/writing.c:93-123`) does: its result, the directories it asked for, the file name it opened, and the bytes
the file got. -/
structure WriteResult where
  status : FileStatus
  dirs : List Str
  file : Str
  contents : Str
  deriving DecidableEq, Repr

/-- `flo_html_writeHTMLToFile`, `src/dom/writing.c:93-123`.  `behind` are the bytes in memory behind the string `path`,
which `fopen` reads as well if `path` contains no zero byte; `canOpen` says whether `fopen` succeeds on a name; the
writes report `sched`.  `scratch` is passed by value. -/
def writeHTMLToFile (d : Dom) (path behind : Str) (canOpen : Str → Bool) (sched : List (Option Nat)) (scratch : Arena) :
    Out WriteResult := do
  let dirs ← createPath path scratch
  let name ← mkdirArg (path ++ behind)
  if canOpen name then do
    let _ ← arenaAlloc 1 1 8192 false false scratch
    let b ← emitDom d ⟨8192, [], [], sched⟩
    let b ← flushIgnore b
    .ok ⟨.success, dirs, name, b.sink⟩
  else .ok ⟨.cantOpen, dirs, name, []⟩

end Flo
