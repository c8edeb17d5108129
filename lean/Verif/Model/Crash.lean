import Verif.Model.Edit
/-!
# The DOM that a failing call leaves behind

Sources: `src/parser.c`, `src/dom/modification.c`, `src/dom/dom-util.c`, `src/dom/appendix.c`, `src/dom/prependix.c`,
`src/dom/replacement.c`, `src/dom/util/string-auto-uint16-map.c:5-26`, `util/include/flo/util/array.h:33-78`.

The other models give the outcome `longjmp` no state.  Here the functions that change a DOM are written once more, statement by
statement, as programs that may fail at every statement that may allocate: a program is run with the number `k` of such statements that
succeed, and the next one leaves through `__builtin_longjmp(perm->jmp_buf, 1)` with the DOM as it is at that moment.  Whether a
`FLO_PUSH` really needs memory depends on the capacity of its array and on the arena, so every number `k` is possible for some arena; a
push that fails has not touched its array: `flo_grow` calls `flo_alloc` before it writes (`util/include/flo/util/array.h:38-47`; only
for an array without buffer is the capacity written first, and no array of a DOM that was created is without one, except empty link
and attribute tables, whose length is not affected).
-/
namespace Flo

/-- Outcome of a program: done (with the number of allocations that may still succeed), left through the failure exit with this
DOM, or not terminating or undefined (`util/src/memory/arena.c:17`). -/
inductive CRes (α : Type) where
  | done (a : α) (d : Dom) (k : Nat)
  | fail (d : Dom)
  | stop

/-- A program that works on a DOM and takes memory from an arena (the parameters `dom` and `perm`, e.g. `src/dom/modification.c:45-47`). -/
def CM (α : Type) : Type := Nat → Dom → CRes α

namespace CM

/-- One statement after the other, e.g. `src/dom/modification.c:48-55`. -/
def bind {α β : Type} (m : CM α) (f : α → CM β) : CM β := fun k d =>
  match m k d with
  | .done a d k => f a k d
  | .fail d => .fail d
  | .stop => .stop

instance : Monad CM where
  pure a := fun k d => .done a d k
  bind := CM.bind

/-- A place where memory is needed, `util/src/memory/arena.c:4-24`: it succeeds as long as there is some. -/
def point : CM Unit := fun k d =>
  match k with
  | 0 => .fail d
  | k + 1 => .done () d k

/-- Reading the DOM, e.g. `src/dom/appendix.c:80-81`. -/
def read {α : Type} (f : Dom → α) : CM α := fun k d => .done (f d) d k

/-- Writing to the DOM, e.g. `src/dom/deletion.c:49-54`. -/
def write (f : Dom → Dom) : CM Unit := fun k d => .done () (f d) k

/-- A computation that reads the DOM and may refuse (`src/dom/util/string-auto-uint16-map.c:16-19`, `src/dom/dom-util.c:15-18`). -/
def ask {α : Type} (f : Dom → Out α) : CM α := fun k d =>
  match f d with
  | .ok a => .done a d k
  | .longjmp => .fail d
  | _ => .stop

/-- A computation that changes the DOM without taking memory (`src/dom/deletion.c:10-66`). -/
def change (f : Dom → Out Dom) : CM Unit := fun k d =>
  match f d with
  | .ok d => .done () d k
  | .longjmp => .fail d
  | _ => .stop

/-- `*FLO_PUSH(&table, perm) = row`, `util/include/flo/util/array.h:58-66`. -/
def push (f : Dom → Dom) : CM Unit := do
  point
  write f

end CM
open CM

/-! ## Names and attributes -/

/-- `getCreatedPropIDFromString` with `PROPERTY_TYPE_BOOL`, `src/dom/modification.c:19-43`, and the insertion,
`src/dom/util/string-auto-uint16-map.c:5-26`: the node of the map is allocated before anything is written. -/
def internBoolC (s : Str) : CM Nat := do
  let r ← ask fun d => d.boolMap.insert s
  if r.wasInserted then do
    push fun d => { d with boolMap := r.map }
    push fun d => { d with boolReg := d.boolReg ++ [s] }
    pure r.entryIndex
  else pure r.entryIndex

/-- `getCreatedPropIDFromString` with `PROPERTY_TYPE_KEY`, `src/dom/modification.c:19-43`. -/
def internKeyC (s : Str) : CM Nat := do
  let r ← ask fun d => d.keyMap.insert s
  if r.wasInserted then do
    push fun d => { d with keyMap := r.map }
    push fun d => { d with keyReg := d.keyReg ++ [s] }
    pure r.entryIndex
  else pure r.entryIndex

/-- `getCreatedPropIDFromString` with `PROPERTY_TYPE_VALUE`, `src/dom/modification.c:19-43`. -/
def internValC (s : Str) : CM Nat := do
  let r ← ask fun d => d.valMap.insert s
  if r.wasInserted then do
    push fun d => { d with valMap := r.map }
    push fun d => { d with valReg := d.valReg ++ [s] }
    pure r.entryIndex
  else pure r.entryIndex

/-- `flo_html_addPropertyToNode`, `src/dom/modification.c:45-56`. -/
def addPropertyC (n : Nat) (key value : Str) : CM Unit := do
  let k ← internKeyC key
  let v ← internValC value
  push fun d => { d with props := d.props ++ [⟨n, k, v⟩] }

/-- `flo_html_addBooleanPropertyToNode`, `src/dom/modification.c:58-66`. -/
def addBoolPropertyC (n : Nat) (name : Str) : CM Unit := do
  let b ← internBoolC name
  push fun d => { d with boolProps := d.boolProps ++ [(n, b)] }

/-- `flo_html_setPropertyValue`, `src/dom/modification.c:68-91`. -/
def setPropertyValueC (n : Nat) (key newValue : Str) : CM Bool := do
  let k ← read fun d => d.keyMap.contains key
  if k = 0 then pure false
  else do
    let i ← read fun d => getProperty n k d
    match i with
    | none => pure false
    | some i => do
      let v ← internValC newValue
      write fun d => { d with props := d.props.modify i (fun r => { r with value := v }) }
      pure true

/-- `flo_html_addTextToTextNode`, `src/dom/modification.c:105-125`: the buffer is allocated before the text is exchanged. -/
def addTextToTextNodeC (n : Nat) (text : Str) (isAppend : Bool) : CM Unit := do
  let node ← ask fun d => d.node n
  let prev ← ask fun _ => node.getText
  let merged := if isAppend then prev ++ [cSp] ++ text else text ++ [cSp] ++ prev
  push fun d => d.setNode n { node with payload := .text merged }

/-- `flo_html_setTagOnDocumentNode`, `src/dom/modification.c:127-138`. -/
def setTagC (tag : Str) (n : Nat) (isPaired : Bool) : CM Unit := do
  let r ← ask fun d => d.tagMap.insert tag
  if r.wasInserted then do
    push fun d => { d with tagMap := r.map }
    push fun d => { d with tagReg := d.tagReg ++ [(tag, isPaired)] }
    let node ← ask fun d => d.node n
    write fun d => d.setNode n { node with payload := .tag r.entryIndex }
  else do
    let node ← ask fun d => d.node n
    write fun d => d.setNode n { node with payload := .tag r.entryIndex }

/-- `flo_html_tryMerge`, `src/dom/dom-util.c:28-38`. -/
def tryMergeC (possible replacing : Nat) (isAppend : Bool) : CM Bool := do
  let node ← ask fun d => d.node possible
  if node.type = .text then do
    let r ← ask fun d => d.node replacing
    let t ← ask fun _ => r.getText
    addTextToTextNodeC possible t isAppend
    pure true
  else pure false

/-! ## New nodes -/

/-- `flo_html_createNode`, `src/dom/dom-util.c:13-26`. -/
def createNodeC (type : NodeType) : CM Nat := do
  let n ← read fun d => d.nodes.length
  if n > 65534 then ask fun _ => .longjmp
  else do
    push fun d => { d with nodes := d.nodes ++ [⟨type, if type = .text then Payload.text [] else Payload.tag 0⟩] }
    pure n

/-- `updateReferences` of the parser, `src/parser.c:36-59`. -/
def parserUpdateReferencesC (new prev : Nat) (stack : List (Nat × Str)) : CM Unit :=
  if new > 0 ∧ prev > 0 then
    match stack with
    | [] => push fun d => { d with nn := d.nn ++ [(prev, new)] }
    | (parent, _) :: _ => do
      push fun d => { d with pc := d.pc ++ [(parent, new)] }
      if parent = prev then push fun d => { d with fc := d.fc ++ [(parent, new)] }
      else push fun d => { d with nn := d.nn ++ [(prev, new)] }
  else pure ()

/-- `parseTextNode`, `src/parser.c:112-161`: the characters are gathered in a buffer of their own, which may grow at every chunk
(`util/include/flo/util/raw-data.h:14-35`); the DOM does not change meanwhile, so one place stands for all of them. -/
def parseTextNodeC (s : Str) (idx : Nat) (tag : Str) : CM (Nat × Nat) := do
  let id ← createNodeC .text
  let r ← ask fun _ => textLoop s tag (s.length + 1) idx [] false
  point
  let node ← ask fun d => d.node id
  write fun d => d.setNode id { node with payload := .text r.1 }
  pure (id, r.2)

/-- The attribute loop of `parseDocumentNode`, `src/parser.c:219-244`. -/
def attrLoopC (s : Str) (node : Nat) : Nat → Nat → Bool → CM (Nat × Bool)
  | 0, _, _ => ask fun _ => .hang
  | f + 1, idx, can =>
    match s[idx]? with
    | none => pure (idx, can)
    | some ch =>
      if ch == cGt then pure (idx, can)
      else if ch == cSlash then attrLoopC s node f (skipSpace s (idx + 1)) false
      else if ch != cSp && !isFormatting ch then do
        let key ← ask fun _ => parseProp s idx
        if currentChar s key.2 == cEq then do
          let value ← ask fun _ => parseProp s (key.2 + 1)
          addPropertyC node key.1 value.1
          attrLoopC s node f (skipSpace s value.2) can
        else do
          addBoolPropertyC node key.1
          attrLoopC s node f (skipSpace s key.2) can
      else attrLoopC s node f (skipSpace s idx) can

/-- Result of `parseDocumentNodeC` (`flo_html_NodeParseResult`, `src/parser.c:67-72`). -/
structure NodeParseC where
  id : Nat
  canHaveChildren : Bool
  tag : Str
  next : Nat

/-- `parseDocumentNode`, `src/parser.c:190-258`. -/
def parseDocumentNodeC (s : Str) (idx : Nat) (exclam : Bool) : CM NodeParseC := do
  let id ← createNodeC .document
  let i := scanUntil isTagEnd (s.drop idx) idx
  let size : Int := (i : Int) - idx
  let slashed ← ask fun _ => tagSlashed s i
  let can := if slashed then false else !exclam
  let size := if slashed then size - 1 else size
  let tag ← ask fun _ => subStr s idx size
  let can := if isVoidElement tag then false else can
  let r ← attrLoopC s id (s.length + 1) (skipSpace s i) can
  setTagC tag id r.2
  pure { id := id, canHaveChildren := r.2, tag := tag, next := r.1 + 1 }

/-- What the main loop of the parser keeps besides the DOM, `src/parser.c:260-266`. -/
structure PStateC where
  idx : Nat
  stack : List (Nat × Str)
  prev : Nat

/-- Text branch, `src/parser.c:304-316` and `src/parser.c:319-330`. -/
def parseTextC (s : Str) (idx : Nat) (st : PStateC) : CM (Option PStateC) := do
  let tag := match st.stack with
    | (_, t) :: _ => t
    | [] => []
  let r ← parseTextNodeC s idx tag
  parserUpdateReferencesC r.1 st.prev st.stack
  pure (some { idx := skipSpace s r.2, stack := st.stack, prev := r.1 })

/-- Start-tag branch, `src/parser.c:281-303`; `none` is the NULL return. -/
def parseElementC (s : Str) (idx : Nat) (st : PStateC) : CM (Option PStateC) := do
  let r ← parseDocumentNodeC s idx (currentChar s idx == cBang)
  parserUpdateReferencesC r.id st.prev st.stack
  if r.canHaveChildren then
    if st.stack.length ≥ maxDepth then pure none
    else pure (some { idx := skipSpace s r.next, stack := (r.id, r.tag) :: st.stack, prev := r.id })
  else pure (some { idx := skipSpace s r.next, stack := st.stack, prev := r.id })

/-- End-tag branch, `src/parser.c:272-279`. -/
def parseEndTagC (s : Str) (startLen : Nat) (st : PStateC) : PStateC :=
  let i := skipSpace s (scanUntil (· == cGt) (s.drop st.idx) st.idx + 1)
  match st.stack with
  | (id, _) :: rest =>
    if st.stack.length > startLen then { idx := i, stack := rest, prev := id }
    else { st with idx := i }
  | [] => { st with idx := i }

/-- One iteration of the main loop, `src/parser.c:269-332`. -/
def parseStepC (junk : Nat → Out Bool) (s : Str) (startLen : Nat) (st : PStateC) : CM (Option PStateC) :=
  if currentChar s st.idx == cLt then do
    let cmt ← ask fun _ => isCommentTag s st.idx
    if cmt then do
      let i ← ask fun _ => skipComment s st.idx
      pure (some { st with idx := skipSpace s i })
    else do
      let e ← ask fun _ => atEndTag junk s st.idx st.stack
      if e then pure (some (parseEndTagC s startLen st))
      else
        let ch := currentChar s (st.idx + 1)
        if isAlphabetical ch || ch == cBang then parseElementC s (st.idx + 1) st
        else parseTextC s (st.idx + 1) st
  else parseTextC s st.idx st

/-- The main loop of `flo_html_parse`, `src/parser.c:268-333`. -/
def parseLoopC (junk : Nat → Out Bool) (s : Str) (startLen : Nat) : Nat → PStateC → CM Bool
  | 0, _ => ask fun _ => .hang
  | f + 1, st =>
    if st.idx < s.length then do
      let r ← parseStepC junk s startLen st
      match r with
      | some st => parseLoopC junk s startLen f st
      | none => pure false
    else pure true

/-- `flo_html_parseExtra`, `src/parser.c:348-354`, with `flo_html_parse`, `src/parser.c:260-336`. -/
def parseExtraC (junk : Nat → Out Bool) (s : Str) : CM Bool :=
  parseLoopC junk s 0 (s.length + 1) { idx := skipSpace s 0, stack := [], prev := errorID }

/-- The boolean-property loop of `flo_html_parseDocumentElement`, `src/parser.c:365-368`. -/
def addBoolsC (n : Nat) : List Str → CM Unit
  | [] => pure ()
  | b :: bs => do
    addBoolPropertyC n b
    addBoolsC n bs

/-- The property loop of `flo_html_parseDocumentElement`, `src/parser.c:370-374`. -/
def addPropsC (n : Nat) : List (Str × Str) → CM Unit
  | [] => pure ()
  | (k, v) :: ps => do
    addPropertyC n k v
    addPropsC n ps

/-- `flo_html_parseDocumentElement`, `src/parser.c:356-377`. -/
def parseDocumentElementC (doc : DocNode) : CM Nat := do
  let id ← createNodeC .document
  setTagC doc.tag id doc.isPaired
  addBoolsC id doc.boolProps
  addPropsC id doc.props
  pure id

/-- `flo_html_parseTextElement`, `src/parser.c:379-387`. -/
def parseTextElementC (text : Str) : CM Nat := do
  let id ← createNodeC .text
  let node ← ask fun d => d.node id
  push fun d => d.setNode id { node with payload := .text text }
  pure id

/-! ## Edits -/

/-- `flo_html_setTextContent`, `src/dom/modification.c:93-103`. -/
def setTextContentC (n : Nat) (text : Str) : CM Unit := do
  change (removeChildren n)
  let id ← parseTextElementC text
  push fun d => { d with fc := d.fc ++ [(n, id)] }
  push fun d => { d with pc := d.pc ++ [(n, id)] }

/-- The loop of `flo_html_connectOtherNodesToParent`, `src/dom/dom-util.c:44-49`. -/
def connectLoopC (parent : Nat) : Nat → Nat → CM Unit
  | 0, _ => ask fun _ => .hang
  | f + 1, other =>
    if other > 0 then do
      push fun d => { d with pc := d.pc ++ [(parent, other)] }
      let next ← read fun d => getNext other d
      connectLoopC parent f next
    else pure ()

/-- `flo_html_connectOtherNodesToParent`, `src/dom/dom-util.c:40-50`. -/
def connectOthersC (parent lastAdded : Nat) : CM Unit := do
  let len ← read fun d => d.nn.length
  let next ← read fun d => getNext lastAdded d
  connectLoopC parent (len + 2) next

/-- `updateReferences` of `src/dom/appendix.c:77-101`. -/
def appendUpdateReferencesC (parent new : Nat) : CM Unit := do
  let i ← read fun d => getFirstChildNode parent d
  match i with
  | none => do
    push fun d => { d with fc := d.fc ++ [(parent, new)] }
    push fun d => { d with pc := d.pc ++ [(parent, new)] }
    connectOthersC parent new
  | some i => do
    let last ← ask fun d => getLastNext (rowAt d.fc i).2 d
    push fun d => { d with nn := d.nn ++ [(last, new)] }
    push fun d => { d with pc := d.pc ++ [(parent, new)] }
    connectOthersC parent new

/-- `flo_html_appendDocumentNode`, `src/dom/appendix.c:103-114`. -/
def appendDocumentNodeC (parent : Nat) (doc : DocNode) : CM Nat := do
  let id ← parseDocumentElementC doc
  if id = 0 then pure 0
  else do
    appendUpdateReferencesC parent id
    pure id

/-- `flo_html_appendTextNode`, `src/dom/appendix.c:116-135`. -/
def appendTextNodeC (parent : Nat) (text : Str) : CM Nat := do
  let id ← parseTextElementC text
  if id = 0 then pure 0
  else do
    let first ← read fun d => getFirstChild parent d
    if first > 0 then do
      let child ← ask fun d => getLastNext first d
      let merged ← tryMergeC child id true
      if merged then do
        change (removeNode id)
        pure child
      else do
        appendUpdateReferencesC parent id
        pure id
    else do
      appendUpdateReferencesC parent id
      pure id

/-- `flo_html_appendHTMLFromString`, `src/dom/appendix.c:137-183`. -/
def appendHTMLC (junk : Nat → Out Bool) (parent : Nat) (html : Str) : CM Nat := do
  let firstNew ← read fun d => d.nodes.length
  let ok ← parseExtraC junk html
  if !ok then pure 0
  else do
    let firstChild ← read fun d => getFirstChild parent d
    if firstChild > 0 then do
      let lastNew ← ask fun d => getLastNext firstNew d
      let node ← ask fun d => d.node firstNew
      if lastNew > firstNew then
        if node.type = .text then do
          let lastNext ← ask fun d => getLastNext firstChild d
          let merged ← tryMergeC lastNext firstNew true
          if merged then do
            let second ← read fun d => getNext firstNew d
            change (removeNode firstNew)
            appendUpdateReferencesC parent second
            pure second
          else do
            appendUpdateReferencesC parent firstNew
            pure firstNew
        else do
          appendUpdateReferencesC parent firstNew
          pure firstNew
      else
        if node.type = .text then do
          let lastNext ← ask fun d => getLastNext firstChild d
          let merged ← tryMergeC lastNext firstNew true
          if merged then do
            change (removeNode firstNew)
            pure lastNext
          else do
            appendUpdateReferencesC parent firstNew
            pure firstNew
        else do
          appendUpdateReferencesC parent firstNew
          pure firstNew
    else do
      appendUpdateReferencesC parent firstNew
      pure firstNew

/-- `updateReferences` of `src/dom/prependix.c:78-105`: the parent's first child is exchanged before the row that leads on to the
previous first child exists. -/
def prependUpdateReferencesC (parent new : Nat) : CM Unit := do
  let i ← read fun d => getFirstChildNode parent d
  match i with
  | none => do
    push fun d => { d with fc := d.fc ++ [(parent, new)] }
    push fun d => { d with pc := d.pc ++ [(parent, new)] }
    connectOthersC parent new
  | some i => do
    let previousFirst ← read fun d => (rowAt d.fc i).2
    write fun d => { d with fc := d.fc.set i ((rowAt d.fc i).1, new) }
    let lastNew ← ask fun d => getLastNext new d
    push fun d => { d with nn := d.nn ++ [(lastNew, previousFirst)] }
    push fun d => { d with pc := d.pc ++ [(parent, new)] }
    connectOthersC parent new

/-- `flo_html_prependDocumentNode`, `src/dom/prependix.c:107-118`. -/
def prependDocumentNodeC (parent : Nat) (doc : DocNode) : CM Nat := do
  let id ← parseDocumentElementC doc
  if id = 0 then pure 0
  else do
    prependUpdateReferencesC parent id
    pure id

/-- `flo_html_prependTextNode`, `src/dom/prependix.c:120-139`. -/
def prependTextNodeC (parent : Nat) (text : Str) : CM Nat := do
  let id ← parseTextElementC text
  if id = 0 then pure 0
  else do
    let child ← read fun d => getFirstChild parent d
    if child > 0 then do
      let merged ← tryMergeC child id false
      if merged then do
        change (removeNode id)
        pure id
      else do
        prependUpdateReferencesC parent id
        pure id
    else do
      prependUpdateReferencesC parent id
      pure id

/-- `flo_html_prependHTMLFromString`, `src/dom/prependix.c:141-178`. -/
def prependHTMLC (junk : Nat → Out Bool) (parent : Nat) (html : Str) : CM Nat := do
  let firstNew ← read fun d => d.nodes.length
  let ok ← parseExtraC junk html
  if !ok then pure 0
  else do
    let firstChild ← read fun d => getFirstChild parent d
    if firstChild > 0 then do
      let lastNew ← ask fun d => getLastNext firstNew d
      let node ← ask fun d => d.node lastNew
      if lastNew > firstNew then
        if node.type = .text then do
          let merged ← tryMergeC firstChild lastNew false
          if merged then do
            change (removeNode lastNew)
            prependUpdateReferencesC parent firstNew
            pure firstNew
          else do
            prependUpdateReferencesC parent firstNew
            pure firstNew
        else do
          prependUpdateReferencesC parent firstNew
          pure firstNew
      else do
        let node ← ask fun d => d.node firstNew
        if node.type = .text then do
          let merged ← tryMergeC firstChild firstNew false
          if merged then do
            change (removeNode firstNew)
            pure firstChild
          else do
            prependUpdateReferencesC parent firstNew
            pure firstNew
        else do
          prependUpdateReferencesC parent firstNew
          pure firstNew
    else do
      prependUpdateReferencesC parent firstNew
      pure firstNew

/-- The loop of `updateReferences` of `src/dom/replacement.c:108-114`. -/
def replaceConnectLoopC (i : Nat) : Nat → Nat → CM Unit
  | 0, _ => ask fun _ => .hang
  | f + 1, other =>
    if other > 0 then do
      push fun d => { d with pc := d.pc ++ [((rowAt d.pc i).1, other)] }
      let next ← read fun d => getNext other d
      replaceConnectLoopC i f next
    else pure ()

/-- The parent rows, `src/dom/replacement.c:106-115`; `i` is the row found before the other changes. -/
def replaceParentC (i : Option Nat) (new : Nat) : CM Unit :=
  match i with
  | none => pure ()
  | some i => do
    write fun d => { d with pc := d.pc.set i ((rowAt d.pc i).1, new) }
    let len ← read fun d => d.nn.length
    let next ← read fun d => getNext new d
    replaceConnectLoopC i (len + 2) next

/-- `updateReferences` of `src/dom/replacement.c:78-122`. -/
def replaceUpdateReferencesC (old new : Nat) : CM Unit := do
  let node ← ask fun d => d.node old
  let lastNew ← ask fun d => getLastNext new d
  let next ← read fun d => getNextNode old d
  let parent ← read fun d => getParentNode old d
  write fun d => { d with nn := replacePrev old new d, fc := replaceFirst old new d }
  replaceParentC parent new
  write fun d => { d with nn := replaceNext next lastNew d.nn, nodes := d.nodes.set old { node with type := .removed } }

/-- `flo_html_replaceWithDocumentNode`, `src/dom/replacement.c:124-135`. -/
def replaceWithDocumentNodeC (old : Nat) (doc : DocNode) : CM Nat := do
  let id ← parseDocumentElementC doc
  if id = 0 then pure 0
  else do
    replaceUpdateReferencesC old id
    pure id

/-- The first attempt of `tryMergeBothSides`, `src/dom/replacement.c:143-151`. -/
def tryMergePrevC (old new : Nat) : CM Bool := do
  let v ← read fun d => getPreviousNode old d
  match v with
  | some v => do
    let p ← read fun d => (rowAt d.nn v).1
    tryMergeC p new true
  | none => pure false

/-- The second attempt of `tryMergeBothSides`, `src/dom/replacement.c:153-158`. -/
def tryMergeNextC (old new : Nat) : CM Bool := do
  let j ← read fun d => getNextNode old d
  match j with
  | some j => do
    let p ← read fun d => (rowAt d.nn j).2
    tryMergeC p new false
  | none => pure false

/-- `tryMergeBothSides`, `src/dom/replacement.c:137-162`. -/
def tryMergeBothSidesC (old new : Nat) : CM Bool := do
  let node ← ask fun d => d.node new
  if node.type = .text then do
    let merged ← tryMergePrevC old new
    if merged then pure true
    else tryMergeNextC old new
  else pure false

/-- `flo_html_replaceWithTextNode`, `src/dom/replacement.c:164-182`. -/
def replaceWithTextNodeC (old : Nat) (text : Str) : CM Nat := do
  let id ← parseTextElementC text
  if id = 0 then pure 0
  else do
    let merged ← tryMergeBothSidesC old id
    if merged then do
      change (removeNode id)
      change (removeNode old)
      pure id
    else do
      replaceUpdateReferencesC old id
      pure id

/-- The first new node is merged into the previous sibling, `src/dom/replacement.c:200-213`. -/
def replaceMergeFirstC (old firstNew : Nat) : CM Nat := do
  let node ← ask fun d => d.node firstNew
  if node.type = .text then do
    let merged ← tryMergePrevC old firstNew
    if merged then do
      let second ← read fun d => getNext firstNew d
      change (removeNode firstNew)
      pure second
    else pure firstNew
  else pure firstNew

/-- The last new node is merged into the next sibling, `src/dom/replacement.c:215-225`. -/
def replaceMergeLastC (old lastNew : Nat) : CM Unit := do
  let last ← ask fun d => d.node lastNew
  if last.type = .text then do
    let merged ← tryMergeNextC old lastNew
    if merged then change (removeNode lastNew) else pure ()
  else pure ()

/-- `flo_html_replaceWithHTMLFromString`, `src/dom/replacement.c:184-239`. -/
def replaceWithHTMLC (junk : Nat → Out Bool) (old : Nat) (html : Str) : CM Nat := do
  let firstNew ← read fun d => d.nodes.length
  let ok ← parseExtraC junk html
  if !ok then pure 0
  else do
    let lastNew ← ask fun d => getLastNext firstNew d
    let previous ← read fun d => getPreviousNode old d
    if lastNew > firstNew then do
      let firstNew ← replaceMergeFirstC old firstNew
      replaceMergeLastC old lastNew
      replaceUpdateReferencesC old firstNew
      pure firstNew
    else do
      let merged ← tryMergeBothSidesC old firstNew
      if merged then do
        change (removeNode firstNew)
        change (removeNode old)
        let r ← ask fun d => replaceReturn previous d
        pure r.1
      else do
        replaceUpdateReferencesC old firstNew
        pure firstNew

end Flo
