import Verif.Model.Modify
/-!
# The HTML parser

Sources: `src/parser.c`, `include/flo/html-parser/util/parse.h`.

A `flo_parse_Status` is the text `s` and the position `idx`.  A loop
`while (idx < len) { ch = text[idx]; if (cond) idx++; else break; }` is recursion on the bytes that remain.
-/
namespace Flo

/-- `FLO_PARSE_NEXT_CHAR_WHILE` without body, `include/flo/html-parser/util/parse.h:15-24`, for a condition
on the current character: applied to the remaining bytes and the current position, gives the new position. -/
def scanWhile (p : UInt8 → Bool) : Str → Nat → Nat
  | [], i => i
  | c :: cs, i => if p c then scanWhile p cs (i + 1) else i

/-- `FLO_PARSE_NEXT_CHAR_UNTIL`, `include/flo/html-parser/util/parse.h:55-76`. -/
def scanUntil (p : UInt8 → Bool) (rest : Str) (i : Nat) : Nat := scanWhile (fun c => !p c) rest i

/-- `FLO_PARSE_SKIP_EMPTY_SPACE`, `include/flo/html-parser/util/parse.h:95-97`. -/
def skipSpace (s : Str) (idx : Nat) : Nat := scanWhile isSpace (s.drop idx) idx

/-- `flo_parse_currentChar`, `include/flo/html-parser/util/parse.h:109-115`. -/
def currentChar (s : Str) (idx : Nat) : UInt8 := s.getD idx 0

/-- The loop of `FLO_PARSE_SKIP_COMMENT`, `include/flo/html-parser/util/parse.h:101-106`. -/
def commentLoop (s : Str) : Str → Nat → Out Nat
  | [], i => .ok i
  | c :: cs, i =>
    if c == cGt then do
      let t ← subStr s ((i : Int) - 2) 2
      if strEq b!"--" t then .ok i else commentLoop s cs (i + 1)
    else commentLoop s cs (i + 1)

/-- `FLO_PARSE_SKIP_COMMENT`, `include/flo/html-parser/util/parse.h:99-107`. -/
def skipComment (s : Str) (idx : Nat) : Out Nat := do
  let i ← commentLoop s (s.drop (idx + 4)) (idx + 4)
  .ok (i + 1)

/-- `voidElementTags`, `src/parser.c:18-23`. -/
def voidElementTags : List Str :=
  [b!"area", b!"base", b!"br", b!"col", b!"embed", b!"hr", b!"img", b!"input", b!"link", b!"meta",
   b!"source", b!"track", b!"wbr"]

/-- `isVoidElement`, `src/parser.c:25-34`. -/
def isVoidElement (s : Str) : Bool := voidElementTags.any (strEq s)

/-- `updateReferences` of the parser, `src/parser.c:36-59`.  The nesting stack is a list, top first. -/
def parserUpdateReferences (new prev : Nat) (stack : List (Nat × Str)) (d : Dom) : Dom :=
  if new > 0 ∧ prev > 0 then
    match stack with
    | [] => { d with nn := d.nn ++ [(prev, new)] }
    | (parent, _) :: _ =>
      let d := { d with pc := d.pc ++ [(parent, new)] }
      if parent = prev then { d with fc := d.fc ++ [(parent, new)] }
      else { d with nn := d.nn ++ [(prev, new)] }
  else d

/-- `textNodeContinue`, `src/parser.c:61-65`. -/
def textNodeContinue (s : Str) (idx : Nat) (ch : UInt8) : Out Bool :=
  if isFormatting ch then .ok false
  else if ch != cSp then .ok true
  else if idx > 0 then do
    let c ← charAt s ((idx : Int) - 1)
    .ok (c != cSp)
  else .ok false

/-- `isCommentTag`, `src/parser.c:74-79`. -/
def isCommentTag (s : Str) (idx : Nat) : Out Bool :=
  if (idx : Int) < (s.length : Int) - 4 then do
    let t ← subStr s ((idx : Int) + 1) 3
    .ok (strEq b!"!--" t)
  else .ok false

/-- `isCloseTag`, `src/parser.c:83-91`. -/
def isCloseTag (s : Str) (idx : Nat) (tag : Str) : Out Bool :=
  if (idx : Int) < (s.length : Int) - tag.length - 2 then do
    let a ← subStr s ((idx : Int) + 1) 1
    if strEq b!"/" a then do
      let b ← subStr s ((idx : Int) + 2) tag.length
      .ok (strEq tag b)
    else .ok false
  else .ok false

/-- `isEndDocumentTag`, `src/parser.c:93-105`: only the first `closeToken.len` characters are compared. -/
def isEndDocumentTag (s : Str) (idx : Nat) (tag : Str) : Out Bool :=
  let idx := idx + 1
  if currentChar s idx == cSlash ∧ ((idx : Int) + tag.length < (s.length : Int) - 1) then do
    let t ← subStr s ((idx : Int) + 1) tag.length
    .ok (strEq t tag)
  else .ok false

/-- The inner loop of `parseTextNode`, `src/parser.c:136-137`, over the remaining bytes; returns the new
position and the number of characters taken. -/
def chunkLoop (s : Str) : Str → Nat → Nat → Out (Nat × Nat)
  | [], i, n => .ok (i, n)
  | c :: cs, i, n => do
    let cont ← textNodeContinue s i c
    if cont && c != cLt then chunkLoop s cs (i + 1) (n + 1) else .ok (i, n)

/-- One text chunk, `src/parser.c:133-154`: position after the chunk and its characters. -/
def parseChunk (s : Str) (idx : Nat) : Out (Nat × Str) := do
  let (i, n) ← chunkLoop s (s.drop idx) idx 0
  let len : Int ←
    if i > 0 then do
      let c ← charAt s ((i : Int) - 1)
      .ok (if c == cSp then (n : Int) - 1 else n)
    else .ok (n : Int)
  let t ← subStr s idx len
  .ok (i, t)

/-- The head of the loop of `parseTextNode`, `src/parser.c:125-132`: does the text end here, and is there a
comment here?  For `<` the condition is `!isComment || (isSpecialTag && isCloseTag)`. -/
def textStop (s tag : Str) (idx : Nat) (ch : UInt8) : Out (Bool × Bool) :=
  if ch == cLt then do
    let cmt ← isCommentTag s idx
    if !cmt then .ok (true, cmt)
    else if strEq tag b!"script" || strEq tag b!"style" then do
      let e ← isCloseTag s idx tag
      .ok (e, cmt)
    else .ok (false, cmt)
  else .ok (false, false)

/-- The loop of `parseTextNode`, `src/parser.c:125-156`.  `flo_addRawData` is list append
(its memory behaviour: `util/include/flo/util/raw-data.h`, C47). -/
def textLoop (s tag : Str) : Nat → Nat → Str → Bool → Out (Str × Nat)
  | 0, _, _, _ => .hang
  | f + 1, idx, raw, isAppend =>
    match s[idx]? with
    | none => .ok (raw, idx)
    | some ch => do
      let (stop, cmt) ← textStop s tag idx ch
      if stop then .ok (raw, idx)
      else if cmt then do
        let i ← skipComment s idx
        textLoop s tag f (skipSpace s i) raw isAppend
      else do
        let (i, t) ← parseChunk s idx
        let raw := if isAppend then raw ++ [cSp] else raw
        textLoop s tag f (skipSpace s i) (raw ++ t) true

/-- `parseTextNode`, `src/parser.c:112-161`: (new node, next position, DOM). -/
def parseTextNode (s : Str) (idx : Nat) (tag : Str) (d : Dom) : Out (Nat × Nat × Dom) := do
  let (id, d) ← createNode .text d
  let (raw, i) ← textLoop s tag (s.length + 1) idx [] false
  let node ← d.node id
  .ok (id, i, d.setNode id { node with payload := .text raw })

/-- The quoted loop of `parseProp`, `src/parser.c:171-176`, over the remaining bytes. -/
def quoteLoop (quote : UInt8) : Str → Nat → Nat → Int → Nat × Int
  | [], i, _, len => (i, len)
  | c :: cs, i, count, len =>
    if count < 2 then quoteLoop quote cs (i + 1) (count + if c == quote then 1 else 0) (len + 1)
    else (i, len)

/-- End of an unquoted attribute name or value, `src/parser.c:181-183`. -/
def isPropEnd (ch : UInt8) : Bool := ch == cSp || isFormatting ch || ch == cEq || ch == cGt

/-- `parseProp`, `src/parser.c:163-188`: (token, next position). -/
def parseProp (s : Str) (idx : Nat) : Out (Str × Nat) :=
  let ch := currentChar s idx
  if ch == cQuot || ch == cDQuot then do
    let (i, len) := quoteLoop ch (s.drop idx) idx 0 (-2)
    let t ← subStr s ((idx : Int) + 1) len
    .ok (t, i)
  else do
    let i := scanUntil isPropEnd (s.drop idx) idx
    let t ← subStr s idx ((i : Int) - idx)
    .ok (t, i)

/-- The attribute loop of `parseDocumentNode`, `src/parser.c:219-244`:
(next position, canHaveChildren, DOM). -/
def attrLoop (s : Str) (node : Nat) : Nat → Nat → Bool → Dom → Out (Nat × Bool × Dom)
  | 0, _, _, _ => .hang
  | f + 1, idx, can, d =>
    match s[idx]? with
    | none => .ok (idx, can, d)
    | some ch =>
      if ch == cGt then .ok (idx, can, d)
      else if ch == cSlash then attrLoop s node f (skipSpace s (idx + 1)) false d
      else if ch != cSp && !isFormatting ch then do
        let (key, i) ← parseProp s idx
        if currentChar s i == cEq then do
          let (value, j) ← parseProp s (i + 1)
          let d ← addProperty node key value d
          attrLoop s node f (skipSpace s j) can d
        else do
          let d ← addBoolProperty node key d
          attrLoop s node f (skipSpace s i) can d
      else attrLoop s node f (skipSpace s idx) can d

/-- End of a tag name, `src/parser.c:197-198`. -/
def isTagEnd (ch : UInt8) : Bool := ch == cGt || ch == cSp || isFormatting ch

/-- Result of `parseDocumentNode` (`flo_html_NodeParseResult`, `src/parser.c:67-72`). -/
structure NodeParse where
  id : Nat
  canHaveChildren : Bool
  tag : Str
  next : Nat
  dom : Dom
  deriving DecidableEq, Repr

/-- Does the tag name end in "/>" at position `i`?  `src/parser.c:204-206`. -/
def tagSlashed (s : Str) (i : Nat) : Out Bool :=
  if currentChar s i == cGt then do
    let c ← charAt s ((i : Int) - 1)
    .ok (c == cSlash)
  else .ok false

/-- `parseDocumentNode`, `src/parser.c:190-258`. -/
def parseDocumentNode (s : Str) (idx : Nat) (exclam : Bool) (d : Dom) : Out NodeParse := do
  let (id, d) ← createNode .document d
  let i := scanUntil isTagEnd (s.drop idx) idx
  let size : Int := (i : Int) - idx
  let slashed ← tagSlashed s i
  let can := if slashed then false else !exclam
  let size := if slashed then size - 1 else size
  let tag ← subStr s idx size
  let can := if isVoidElement tag then false else can
  let (j, can, d) ← attrLoop s id (s.length + 1) (skipSpace s i) can d
  let d ← setTag tag id can d
  .ok { id := id, canHaveChildren := can, tag := tag, next := j + 1, dom := d }

/-- State of the main loop of `flo_html_parse`: position, DOM, nesting stack (top first), `prevNodeID`
(`src/parser.c:260-266`). -/
structure PState where
  idx : Nat
  dom : Dom
  stack : List (Nat × Str)
  prev : Nat
  deriving DecidableEq, Repr

/-- One iteration of the main loop either goes on or returns NULL (`src/parser.c:292-296`); the DOM object
stays accessible to the callers of `flo_html_parseExtra`. -/
inductive PStep where
  | next (st : PState)
  | null (d : Dom)
  deriving DecidableEq, Repr

/-- `FLO_HTML_MAX_NODE_DEPTH`, `include/flo/html-parser/parser.h:11`. -/
abbrev maxDepth : Nat := 256

/-- Is there an end tag of the innermost open element at `idx`?  With an empty nesting stack
(`flo_html_parseExtra`) the C code reads `nodeStack->stack[-1]` (`src/parser.c:272-273`); what comes out is
given by the oracle `junk` (indexed by position), consulted only when the next character is '/', because
otherwise `isEndDocumentTag` answers false whatever the tag. -/
def atEndTag (junk : Nat → Out Bool) (s : Str) (idx : Nat) (stack : List (Nat × Str)) : Out Bool :=
  match stack with
  | (_, tag) :: _ => isEndDocumentTag s idx tag
  | [] => if currentChar s (idx + 1) == cSlash then junk idx else .ok false

/-- Text branch shared by `src/parser.c:304-316` and `src/parser.c:319-330`. -/
def parseText (s : Str) (idx : Nat) (st : PState) : Out PStep := do
  let tag := match st.stack with
    | (_, t) :: _ => t
    | [] => []
  let (id, i, d) ← parseTextNode s idx tag st.dom
  let d := parserUpdateReferences id st.prev st.stack d
  .ok (.next { idx := skipSpace s i, dom := d, stack := st.stack, prev := id })

/-- Start-tag branch, `src/parser.c:281-303`. -/
def parseElement (s : Str) (idx : Nat) (st : PState) : Out PStep := do
  let r ← parseDocumentNode s idx (currentChar s idx == cBang) st.dom
  let d := parserUpdateReferences r.id st.prev st.stack r.dom
  if r.canHaveChildren then
    if st.stack.length ≥ maxDepth then .ok (.null d)
    else .ok (.next { idx := skipSpace s r.next, dom := d, stack := (r.id, r.tag) :: st.stack, prev := r.id })
  else .ok (.next { idx := skipSpace s r.next, dom := d, stack := st.stack, prev := r.id })

/-- End-tag branch, `src/parser.c:272-279`. -/
def parseEndTag (s : Str) (startLen : Nat) (st : PState) : PStep :=
  let i := skipSpace s (scanUntil (· == cGt) (s.drop st.idx) st.idx + 1)
  match st.stack with
  | (id, _) :: rest =>
    if st.stack.length > startLen then .next { st with idx := i, stack := rest, prev := id }
    else .next { st with idx := i }
  | [] => .next { st with idx := i }

/-- One iteration of the main loop, `src/parser.c:269-332` (the caller has checked `idx < len`), including
the trailing `FLO_PARSE_SKIP_EMPTY_SPACE`. -/
def parseStep (junk : Nat → Out Bool) (s : Str) (startLen : Nat) (st : PState) : Out PStep :=
  if currentChar s st.idx == cLt then do
    let cmt ← isCommentTag s st.idx
    if cmt then do
      let i ← skipComment s st.idx
      .ok (.next { st with idx := skipSpace s i })
    else do
      let e ← atEndTag junk s st.idx st.stack
      if e then .ok (parseEndTag s startLen st)
      else
        let ch := currentChar s (st.idx + 1)
        if isAlphabetical ch || ch == cBang then parseElement s (st.idx + 1) st
        else parseText s (st.idx + 1) st
  else parseText s st.idx st

/-- Result of `flo_html_parse`, `src/parser.c:295,335`: `ok = false` is the NULL return. -/
structure ParseRes where
  ok : Bool
  dom : Dom
  deriving DecidableEq, Repr

/-- The main loop of `flo_html_parse`, `src/parser.c:268-333`. -/
def parseLoop (junk : Nat → Out Bool) (s : Str) (startLen : Nat) : Nat → PState → Out ParseRes
  | 0, _ => .hang
  | f + 1, st =>
    if st.idx < s.length then do
      match ← parseStep junk s startLen st with
      | .next st => parseLoop junk s startLen f st
      | .null d => .ok ⟨false, d⟩
    else .ok ⟨true, st.dom⟩

/-- `flo_html_parse`, `src/parser.c:260-336`. -/
def parse (junk : Nat → Out Bool) (s : Str) (d : Dom) (prev : Nat) (stack : List (Nat × Str)) :
    Out ParseRes :=
  parseLoop junk s stack.length (s.length + 1)
    { idx := skipSpace s 0, dom := d, stack := stack, prev := prev }

/-- `flo_html_parseRoot`, `src/parser.c:338-346`. -/
def parseRoot (junk : Nat → Out Bool) (s : Str) (d : Dom) : Out ParseRes :=
  parse junk s d rootID [(rootID, [])]

/-- `flo_html_parseExtra`, `src/parser.c:348-354`. -/
def parseExtra (junk : Nat → Out Bool) (s : Str) (d : Dom) : Out ParseRes :=
  parse junk s d errorID []

/-- `flo_html_createDom`, `src/dom/dom.c:23-43`.  The nesting stack of `parseRoot` is never empty, so the
oracle is irrelevant; it is fixed to the worst outcome, undefined behaviour.  `none` is the NULL return. -/
def createDom (s : Str) : Out (Option Dom) := do
  let r ← parseRoot (fun _ => .ub .oobIndex) s Dom.init
  .ok (if r.ok then some r.dom else none)

/-- `flo_html_DocumentNode`, `include/flo/html-parser/node/document-node.h:15-23`.  The arrays of 16 entries
with explicit lengths are lists; `keyProps`/`valueProps` are a list of pairs. -/
structure DocNode where
  tag : Str
  isPaired : Bool
  boolProps : List Str
  props : List (Str × Str)
  deriving DecidableEq, Repr

/-- The boolean-property loop of `flo_html_parseDocumentElement`, `src/parser.c:365-368`. -/
def addBools (n : Nat) : List Str → Dom → Out Dom
  | [], d => .ok d
  | b :: bs, d => do
    let d ← addBoolProperty n b d
    addBools n bs d

/-- The property loop of `flo_html_parseDocumentElement`, `src/parser.c:370-374`. -/
def addProps (n : Nat) : List (Str × Str) → Dom → Out Dom
  | [], d => .ok d
  | (k, v) :: ps, d => do
    let d ← addProperty n k v d
    addProps n ps d

/-- `flo_html_parseDocumentElement`, `src/parser.c:356-377`. -/
def parseDocumentElement (doc : DocNode) (d : Dom) : Out (Nat × Dom) := do
  let (id, d) ← createNode .document d
  let d ← setTag doc.tag id doc.isPaired d
  let d ← addBools id doc.boolProps d
  let d ← addProps id doc.props d
  .ok (id, d)

/-- `flo_html_parseTextElement`, `src/parser.c:379-387`. -/
def parseTextElement (text : Str) (d : Dom) : Out (Nat × Dom) := do
  let (id, d) ← createNode .text d
  let node ← d.node id
  .ok (id, d.setNode id { node with payload := .text text })

end Flo
