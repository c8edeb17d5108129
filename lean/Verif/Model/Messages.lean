import Verif.Model.Files
import Verif.Model.LogReturn
import Verif.Model.Compare
/-!
# What failing calls say: the messages on the standard error stream

Sources: `src/dom/query/query.c`, `src/dom/appendix.c`, `src/dom/prependix.c`, `src/dom/replacement.c`, `src/dom/dom.c`,
`src/dom/writing.c`, the `...StatusToString` functions, `util/src/log.c:37-42`, `util/include/flo/util/log.h`.

`Verif.Model.Query` and `Verif.Model.Files` leave the messages out.  Here the same functions are modelled again with the
standard error buffer (`WBuf`) as an argument and a result.
-/
namespace Flo

/-! ## The two standard streams -/

/-- The two buffers of the process, `stdoutBuffer` and `stderrBuffer`, `util/src/log.c:8-17`. -/
structure Streams where
  out : WBuf
  err : WBuf
  deriving DecidableEq, Repr

/-- `flo_BufferType`, `util/include/flo/util/log.h:40`. -/
inductive BufferType
  | stdout | stderr
  deriving DecidableEq, Repr

/-- `flo_getWriteBuffer`, `util/src/log.c:37-42`: the buffer the pointer returned refers to. -/
def getWriteBuffer (t : BufferType) (s : Streams) : WBuf := if t = .stdout then s.out else s.err

/-- Writing through the pointer `flo_getWriteBuffer` returned, `util/src/log.c:37-42`. -/
def setWriteBuffer (t : BufferType) (b : WBuf) (s : Streams) : Streams :=
  if t = .stdout then { s with out := b } else { s with err := b }

/-- `FLO_LOG(data, bufferType, flags)`, `FLO_FLUSH_TO(bufferType)`, `util/include/flo/util/log.h:45,107-128`: an operation on
the buffer of that type. -/
def onStream (t : BufferType) (f : WBuf → Out WBuf) (s : Streams) : Out Streams := do
  let b ← f (getWriteBuffer t s)
  .ok (setWriteBuffer t b s)

/-! ## Texts of status codes.  A status is passed as the number of the enumeration constant. -/

/-- `queryStatusStrings`, `include/flo/html-parser/dom/query/query-status.h:19-25`. -/
def queryStatusStrings : List Str :=
  [b!"Success", b!"Invalid element", b!"Too many filters for a single element", b!"Detected unforeseen tag or attribute",
    b!"Memory error"]

/-- Reading entry `i` of an array of strings (`queryStatusStrings[status]`,
`include/flo/html-parser/dom/query/query-status.h:30`). -/
def stringAtIndex (l : List Str) (i : Int) : Out Str :=
  if i < 0 then .ub .oobRead else
  match l[i.toNat]? with
  | some s => .ok s
  | none => .ub .oobRead

/-- `flo_html_queryingStatusToString`, `include/flo/html-parser/dom/query/query-status.h:27-33`. -/
def queryingStatusToString (status : Int) : Out Str :=
  if status ≥ 0 ∧ status < 5 then stringAtIndex queryStatusStrings status else .ok b!"Unknown query status code!"

/-- The number of an enumeration constant, `include/flo/html-parser/dom/query/query-status.h:10-17`. -/
def QStatus.code : QStatus → Int
  | .success => 0
  | .invalidElement => 1
  | .tooManyFilters => 2
  | .notSeenBefore => 3
  | .memoryError => 4

/-- `fileStatusStrings`, `util/include/flo/util/file/file-status.h:16-21`. -/
def fileStatusStrings : List Str :=
  [b!"Success", b!"Cannot open file", b!"Cannot allocate memory", b!"Cannot read file"]

/-- `flo_fileStatusToString`, `util/include/flo/util/file/file-status.h:25-31`. -/
def fileStatusToString (status : Int) : Out Str :=
  if status ≥ 0 ∧ status < 4 then stringAtIndex fileStatusStrings status else .ok b!"Unknown file status code!"

/-- The number of an enumeration constant, `util/include/flo/util/file/file-status.h:8-14`. -/
def FileStatus.code : FileStatus → Int
  | .success => 0
  | .cantOpen => 1
  | .cantAllocate => 2
  | .cantRead => 3

/-- `comparisonStatusStrings`, `src/comparison-status.c:3-7`. -/
def comparisonStatusStrings : List Str :=
  [b!"Success", b!"Memory error", b!"Different type of node", b!"Collections have different sizes",
    b!"Collections have different content"]

/-- `flo_html_comparisonStatusToString`, `src/comparison-status.c:9-14`. -/
def comparisonStatusToString (status : Int) : Out Str :=
  if status ≥ 0 ∧ status < 5 then stringAtIndex comparisonStatusStrings status else .ok b!"Unknown comparison status code!"

/-- The number of an enumeration constant, `include/flo/html-parser/comparison-status.h:10-17`. -/
def CStatus.code : CStatus → Int
  | .success => 0
  | .memory => 1
  | .differentNodeType => 2
  | .differentSizes => 3
  | .differentContent => 4

/-- `hashComparisonStatusStrings`, `util/src/hash/hash-comparison-status.c:3-5`. -/
def hashStatusStrings : List Str :=
  [b!"Success", b!"Collections have different sizes", b!"Collections have different content"]

/-- `flo_hashComparisonStatusToString`, `util/src/hash/hash-comparison-status.c:7-12`. -/
def hashStatusToString (status : Int) : Out Str :=
  if status ≥ 0 ∧ status < 3 then stringAtIndex hashStatusStrings status else .ok b!"Unknown hash comparison status code!"

/-- `nodeTypeStrings`, `include/flo/html-parser/node/node.h:23-25`. -/
def nodeTypeStrings : List Str := [b!"Root", b!"Document", b!"Text", b!"Removed", b!"Error"]

/-- `flo_html_nodeTypeToString`, `include/flo/html-parser/node/node.h:27-33`. -/
def nodeTypeToString (type : Int) : Out Str :=
  if type ≥ 0 ∧ type < 5 then stringAtIndex nodeTypeStrings type else .ok b!"Unknown node type!"

/-- The number of an enumeration constant, `include/flo/html-parser/node/node.h:14-21`. -/
def NodeType.num : NodeType → Int
  | .root => 0
  | .document => 1
  | .text => 2
  | .removed => 3
  | .error => 4

/-! ## Queries -/

/-- `FLO_ERROR(data, flags)` for a C string, `util/include/flo/util/log.h:77,128`. -/
def sayC (s : Str) (fl : LFlags) (b : WBuf) : Out WBuf := do
  let (_, b) ← appendCStrR (some (s ++ [0])) fl b
  .ok b

/-- `FLO_ERROR(data, flags)` for a `flo_String`, `util/include/flo/util/log.h:76,128`. -/
def sayS (s : Str) (fl : LFlags) (b : WBuf) : Out WBuf := appendToBuffer s fl b

/-- `FLO_FLUSH`, `util/include/flo/util/log.h:18`. -/
abbrev flFlush : LFlags := ⟨false, true⟩

/-- The attribute loop with its messages, `src/dom/query/query.c:127-203` and lines 28-37. -/
def attrFiltersE (s : Str) (d : Dom) : Nat → Nat → List Filter → WBuf → Out (QRes (Nat × List Filter) × WBuf)
  | 0, _, _, _ => .hang
  | f + 1, idx, fs, b =>
    match s[idx]? with
    | none => .ok (.go (idx, fs), b)
    | some c =>
      if c == 91 || c == 46 || c == 35 then
        if fs.length ≥ maxFilters then do
          let b ← sayS b!"Too many filters in a single element detected!\n" flFlush b
          .ok (.fail .tooManyFilters, b)
        else do
          let i := scanUntil isTagStartChar (s.drop idx) idx
          let (token, i) ← parseToken s i
          let ch := currentChar s i
          if c == 46 || c == 35 then
            let key := if c == 46 then b!"class" else b!"id"
            let k := d.keyMap.contains key
            if k = 0 then .ok (.fail .notSeenBefore, b)
            else
              let v := d.valMap.contains token
              if v = 0 then .ok (.fail .notSeenBefore, b)
              else attrFiltersE s d f (if ch == 93 then i + 1 else i) (fs ++ [.prop k v]) b
          else if ch == 93 then
            let p := d.boolMap.contains token
            if p = 0 then .ok (.fail .notSeenBefore, b)
            else attrFiltersE s d f (i + 1) (fs ++ [.bool p]) b
          else if ch == cEq then
            let k := d.keyMap.contains token
            if k = 0 then .ok (.fail .notSeenBefore, b)
            else do
              let i := scanUntil isTagStartChar (s.drop (i + 1)) (i + 1)
              let (value, i) ← parseToken s i
              let ch := currentChar s i
              let v := d.valMap.contains value
              if v = 0 then .ok (.fail .notSeenBefore, b)
              else attrFiltersE s d f (if ch == 93 then i + 1 else i) (fs ++ [.prop k v]) b
          else do
            let b ← sayC b!"Unrecognized character in filtering function. Dropping a token!\n" flFlush b
            attrFiltersE s d f (if ch == 93 then i + 1 else i) fs b
      else .ok (.go (idx, fs), b)

/-- The main loop of `getQueryResults` with its messages, `src/dom/query/query.c:102-284`. -/
def queryLoopE (pun : Nat → Nat) (s : Str) (d : Dom) :
    Nat → Nat → Combinator → U16Set → WBuf → Out (QRes U16Set × WBuf)
  | 0, _, _, _, _ => .hang
  | f + 1, idx, comb, set, b =>
    if idx < s.length then do
      match ← leadFilter s d idx with
      | .fail st => .ok (.fail st, b)
      | .go (idx, fs) =>
        match ← attrFiltersE s d (s.length + 1) idx fs b with
        | (.fail st, b) => .ok (.fail st, b)
        | (.go (idx, fs), b) =>
          if fs.length < 1 then do
            let b ← sayC b!"Did not receive any filters in the css query\n" flFlush b
            .ok (.fail .invalidElement, b)
          else do
            let set ← applyCombinator pun comb fs d set
            let (idx, c) := swoop (s.drop idx) idx cSp
            queryLoopE pun s d f idx (combinatorOf c) set b
    else .ok (.go set, b)

/-- `getQueryResults` with its messages, `src/dom/query/query.c:88-287`. -/
def getQueryResultsE (pun : Nat → Nat) (s : Str) (d : Dom) (set : U16Set) (b : WBuf) : Out (QRes U16Set × WBuf) :=
  queryLoopE pun s d (s.length + 1)
    (scanUntil (fun ch => isElementStartChar ch || ch == 91 || ch == 42) s 0) .none set b

/-- The loop of `flo_html_querySelectorAll` with its messages, `src/dom/query/query.c:303-324`. -/
def selectLoopE (pun : Nat → Nat) (css : Str) (d : Dom) :
    Nat → Nat → U16Set → U16Set → WBuf → Out (QRes U16Set × WBuf)
  | 0, _, _, _, _ => .hang
  | f + 1, start, set, results, b =>
    if start < css.length then do
      let part := (css.drop start).takeWhile (· != 44)
      match ← getQueryResultsE pun part d set b with
      | (.fail st, b) => do
        let text ← queryingStatusToString st.code
        let b ← sayS text ⟨false, false⟩ b
        let b ← sayC b!"Unable get query results!\n" ⟨false, false⟩ b
        let b ← flushIgnore b
        .ok (.fail st, b)
      | (.go set, b) => do
        let results ← u16InsertAll (set.toList 0) results
        selectLoopE pun css d f (start + part.length + 1) (u16Reset set) results b
    else .ok (.go results, b)

/-- `flo_html_querySelectorAll` with its messages, `src/dom/query/query.c:289-336`. -/
def querySelectorAllE (pun : Nat → Nat) (css : Str) (d : Dom) (b : WBuf) : Out (QRes (List Nat) × WBuf) := do
  match ← selectLoopE pun css d (css.length + 1) 0 U16Set.fresh U16Set.fresh b with
  | (.fail st, b) => .ok (.fail st, b)
  | (.go results, b) => do
    let arr ← u16ToArray results
    .ok (.go arr, b)

/-- `flo_html_querySelector` with its messages, `src/dom/query/query.c:338-366`. -/
def querySelectorE (pun : Nat → Nat) (css : Str) (d : Dom) (b : WBuf) : Out (QRes (Option Nat) × WBuf) := do
  match ← querySelectorAllE pun css d b with
  | (.fail st, b) => .ok (.fail st, b)
  | (.go results, b) =>
    if results.length = 0 then .ok (.go (some 0), b)
    else do
      let r ← selectorLoop d results (d.nodes.length + 1) rootID
      .ok (.go r, b)

/-! ## Edits addressed by a query: all twelve functions -/

/-- The macros `APPEND_USING_QUERYSELECTOR`, `src/dom/appendix.c:18-32`, `PREPEND_USING_QUERYSELECTOR`,
`src/dom/prependix.c:19-33`, `REPLACE_USING_QUERYSELECTOR`, `src/dom/replacement.c:20-34`. -/
def withQueryE (pun : Nat → Nat) (css : Str) (edit : Nat → Dom → Out (Nat × Dom)) (d : Dom) (b : WBuf) :
    Out ((Nat × Dom) × WBuf) := do
  match ← querySelectorE pun css d b with
  | (.fail _, b) => do
    let b ← sayC b!"Could not find element using query selector: " ⟨false, false⟩ b
    let b ← sayS css ⟨true, false⟩ b
    let b ← flushIgnore b
    .ok ((0, d), b)
  | (.go r, b) => do
    let r ← edit (r.getD 0) d
    .ok (r, b)

/-- The nine functions that take their operand from memory:
`flo_html_appendDocumentNodeWithQuery`, `flo_html_appendTextNodeWithQuery`, `flo_html_appendHTMLFromStringWithQuery`
(`src/dom/appendix.c:34-56`), `flo_html_prependDocumentNodeWithQuery`, `flo_html_prependTextNodeWithQuery`,
`flo_html_prependHTMLFromStringWithQuery` (`src/dom/prependix.c:35-57`), `flo_html_replaceWithDocumentNodeWithQuery`,
`flo_html_replaceWithTextNodeWithQuery`, `flo_html_replaceWithHTMLFromStringWithQuery` (`src/dom/replacement.c:36-57`). -/
inductive QueryEdit
  | appendDocument (doc : DocNode)
  | appendText (text : Str)
  | appendHTML (html : Str)
  | prependDocument (doc : DocNode)
  | prependText (text : Str)
  | prependHTML (html : Str)
  | replaceDocument (doc : DocNode)
  | replaceText (text : Str)
  | replaceHTML (html : Str)

/-- The call, `src/dom/appendix.c:34-56`, `src/dom/prependix.c:35-57`, `src/dom/replacement.c:36-57`. -/
def runQueryEdit (junk : Nat → Out Bool) (pun : Nat → Nat) (css : Str) (d : Dom) (b : WBuf) :
    QueryEdit → Out ((Nat × Dom) × WBuf)
  | .appendDocument doc => withQueryE pun css (fun n d => appendDocumentNode n doc d) d b
  | .appendText t => withQueryE pun css (fun n d => appendTextNode n t d) d b
  | .appendHTML h => withQueryE pun css (fun n d => Flo.appendHTML junk n h d) d b
  | .prependDocument doc => withQueryE pun css (fun n d => prependDocumentNode n doc d) d b
  | .prependText t => withQueryE pun css (fun n d => prependTextNode n t d) d b
  | .prependHTML h => withQueryE pun css (fun n d => Flo.prependHTML junk n h d) d b
  | .replaceDocument doc => withQueryE pun css (fun n d => replaceWithDocumentNode n doc d) d b
  | .replaceText t => withQueryE pun css (fun n d => replaceWithTextNode n t d) d b
  | .replaceHTML h => withQueryE pun css (fun n d => replaceWithHTML junk n h d) d b

/-! ## Files -/

/-- The message about a file that cannot be read, `src/dom/dom.c:12-16`, `src/dom/appendix.c:65-69`,
`src/dom/prependix.c:66-70`, `src/dom/replacement.c:66-70`. -/
def sayUnreadable (st : FileStatus) (path : Str) (b : WBuf) : Out WBuf := do
  let text ← fileStatusToString st.code
  let b ← sayC text ⟨true, false⟩ b
  let b ← sayC b!"Failed to read file: " ⟨false, false⟩ b
  let b ← sayC path ⟨true, false⟩ b
  flushIgnore b

/-- `flo_html_createDomFromFile` with its message, `src/dom/dom.c:8-22`; `path` is the C string `fileLocation` without its
terminator. -/
def createDomFromFileE (path : Str) (file : Option OpenFile) (a : Arena) (b : WBuf) : Out (Option Dom × WBuf) := do
  let (st, v, a) ← readFile file a
  if st ≠ .success then do
    let b ← sayUnreadable st path b
    .ok (none, b)
  else do
    let d ← createDom (viewStr v a.mem)
    .ok (d, b)

/-- `flo_html_appendHTMLFromFileWithQuery` with its messages, `src/dom/appendix.c:58-75` (and, with another edit,
`src/dom/prependix.c:59-76`, `src/dom/replacement.c:59-76`). -/
def htmlFromFileWithQueryE (edit : Nat → Str → Dom → Out (Nat × Dom)) (pun : Nat → Nat) (css path : Str)
    (file : Option OpenFile) (a : Arena) (d : Dom) (b : WBuf) : Out ((Nat × Dom) × WBuf) := do
  let (st, v, a) ← readFile file a
  if st ≠ .success then do
    let b ← sayUnreadable st path b
    .ok ((0, d), b)
  else withQueryE pun css (fun n d => edit n (viewStr v a.mem) d) d b

/-- `flo_html_writeHTMLToFile` with its message, `src/dom/writing.c:93-123`. -/
def writeHTMLToFileE (d : Dom) (path behind : Str) (canOpen : Str → Bool) (sched : List (Option Nat)) (scratch : Arena)
    (b : WBuf) : Out (WriteResult × WBuf) := do
  let r ← writeHTMLToFile d path behind canOpen sched scratch
  if r.status = .cantOpen then do
    let b ← sayC b!"Failed to open file for writing: " ⟨false, false⟩ b
    let b ← sayS path ⟨true, false⟩ b
    let b ← flushIgnore b
    .ok (r, b)
  else .ok (r, b)

end Flo
