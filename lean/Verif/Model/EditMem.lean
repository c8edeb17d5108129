import Verif.Model.DomMem
import Verif.Model.Edit
/-!
# Editing a DOM in the arena's memory

Sources: `src/dom/deletion.c`, `src/dom/appendix.c`, `src/dom/prependix.c`, `src/dom/replacement.c`, `src/dom/modification.c`,
`src/dom/dom-util.c:28-50`, `src/parser.c:348-387`.

The functions of `Model/Edit.lean` and `Model/Modify.lean` on the representation of `Model/DomMem.lean`: tables are read and written in
memory, texts are allocated in the arena, new rows are pushed on the dynamic arrays.
-/
namespace Flo

/-- The rows of a table of pairs as the scans of `src/dom/traversal.c:5-87` read them. -/
def memRows (s : Arr) (mem : Int → UInt8) : List Row :=
  (List.range s.len.toNat).map fun i : Nat =>
    (readLE mem (bufPtr s.buf + 4 * (i : Int)) 2, readLE mem (bufPtr s.buf + 4 * (i : Int) + 2) 2)

/-- The rows of the table of properties as `src/dom/reading/reading-util.c:4-16` reads them. -/
def memProps (s : Arr) (mem : Int → UInt8) : List PropRow :=
  (List.range s.len.toNat).map fun i : Nat =>
    ⟨readLE mem (bufPtr s.buf + 6 * (i : Int)) 2, readLE mem (bufPtr s.buf + 6 * (i : Int) + 2) 2,
      readLE mem (bufPtr s.buf + 6 * (i : Int) + 4) 2⟩

/-- The tables that navigation and the attribute lookups scan (`src/dom/traversal.c`, `src/dom/reading/reading-util.c`), read from memory.
The navigation functions of `Model/Dom.lean` are applied to them; nodes and names are not part of it. -/
def memTables (M : MDom) (mem : Int → UInt8) : Dom where
  nodes := []
  fc := memRows M.fc mem
  pc := memRows M.pc mem
  nn := memRows M.nn mem
  boolProps := memRows M.boolProps mem
  props := memProps M.props mem
  tagReg := []
  boolReg := []
  keyReg := []
  valReg := []
  tagMap := .empty
  boolMap := .empty
  keyMap := .empty
  valMap := .empty

/-- The address `&dom->nodes.buf[n]`, e.g. `src/dom/deletion.c:13`. -/
def memNode (n : Nat) (M : MDom) : Out Int :=
  if (n : Int) < M.nodes.len then .ok (bufPtr M.nodes.buf + 24 * (n : Int)) else .ub .oobIndex

/-- `dom->nodes.buf[n].nodeType == NODE_TYPE_TEXT`, e.g. `src/dom/dom-util.c:31`. -/
def memIsText (n : Nat) (M : MDom) (mem : Int → UInt8) : Out Bool := do
  let p ← memNode n M
  .ok (readLE mem (p + 4) 4 == NodeType.text.code)

/-- `dom->nodes.buf[n].text`, e.g. `src/dom/dom-util.c:33`. -/
def memNodeText (n : Nat) (M : MDom) (mem : Int → UInt8) : Out MStr := do
  let p ← memNode n M
  .ok (loadStr mem (p + 8))

/-- `dom->nodes.buf[n].nodeID`, e.g. `src/dom/deletion.c:14`. -/
def memNodeID (n : Nat) (M : MDom) (mem : Int → UInt8) : Out Nat := do
  let p ← memNode n M
  .ok (readLE mem p 2)

/-! ## Texts and attributes -/

/-- The three copies of `src/dom/modification.c:114-122` into a new buffer at `p`. -/
def memJoin (p : Int) (first second : MStr) (mem : Int → UInt8) : Int → UInt8 :=
  let mem := memCopy p first.ptr first.len mem
  let mem := memWrite (p + first.len) [cSp] mem
  memCopy (p + first.len + 1) second.ptr second.len mem

/-- `flo_html_addTextToTextNode`, `src/dom/modification.c:105-125`. -/
def memAddText (n : Nat) (text : MStr) (isAppend : Bool) (M : MDom) (a : Arena) : Out Arena := do
  let prev ← memNodeText n M a.mem
  let len := prev.len + text.len + 1
  let (p, a) ← arenaAlloc 1 1 len false false a
  match p with
  | none => .ub .nullDeref
  | some p =>
    let mem := if isAppend then memJoin p prev text a.mem else memJoin p text prev a.mem
    arrPoke 24 n 8 (encStr ⟨p, len⟩) M.nodes { a with mem := mem }

/-- `flo_html_tryMerge`, `src/dom/dom-util.c:28-38`. -/
def memTryMerge (possible replacing : Nat) (isAppend : Bool) (M : MDom) (a : Arena) : Out (Bool × Arena) := do
  let isText ← memIsText possible M a.mem
  if isText then do
    let t ← memNodeText replacing M a.mem
    let a ← memAddText possible t isAppend M a
    .ok (true, a)
  else .ok (false, a)

/-- `flo_html_setPropertyValue`, `src/dom/modification.c:68-91`: the value identifier is at offset 4 of a property.  The two messages are not
modelled here. -/
def memSetPropertyValue (n : Nat) (key newValue : MStr) (M : MDom) (a : Arena) : Out (Bool × MDom × Arena) := do
  let k ← memLookup key M.keyMap a.mem
  if k = 0 then .ok (false, M, a)
  else
    match getProperty n k (memTables M a.mem) with
    | none => .ok (false, M, a)
    | some i => do
      let (v, M, a) ← memInternVal newValue M a
      let a ← arrPoke 6 i 4 (leBytes 2 v) M.props a
      .ok (true, M, a)

/-- `flo_html_removeBooleanProperty`, `src/dom/deletion.c:68-81`. -/
def memRemoveBool (n : Nat) (name : MStr) (M : MDom) (a : Arena) : Out Arena := do
  let b ← memLookup name M.boolMap a.mem
  if b > 0 then
    match getBooleanProperty n b (memTables M a.mem) with
    | some i => arrPoke 4 i 0 (encRow (0, 0)) M.boolProps a
    | none => .ok a
  else .ok a

/-- `flo_html_removeProperty`, `src/dom/deletion.c:83-96`. -/
def memRemoveProp (n : Nat) (key : MStr) (M : MDom) (a : Arena) : Out Arena := do
  let k ← memLookup key M.keyMap a.mem
  if k > 0 then
    match getProperty n k (memTables M a.mem) with
    | some i => arrPoke 6 i 0 (encProp ⟨0, 0, 0⟩) M.props a
    | none => .ok a
  else .ok a

/-! ## New nodes -/

/-- `flo_html_parseTextElement`, `src/parser.c:379-387`. -/
def memParseTextElement (text : MStr) (M : MDom) (a : Arena) : Out (Nat × MDom × Arena) := do
  let (id, M, a) ← memCreateNode .text M a
  let (p, a) ← arenaAlloc 1 1 text.len false false a
  match p with
  | none => .ub .nullDeref
  | some p => do
    let a ← arrPoke 24 id 8 (encStr ⟨p, text.len⟩) M.nodes { a with mem := memCopy p text.ptr text.len a.mem }
    .ok (id, M, a)

/-- `flo_html_DocumentNode`, `include/flo/html-parser/node/document-node.h:15-23`; see `DocNode`. -/
structure MDocNode where
  tag : MStr
  isPaired : Bool
  boolProps : List MStr
  props : List (MStr × MStr)

/-- The boolean-property loop of `flo_html_parseDocumentElement`, `src/parser.c:365-368`. -/
def memAddBools (n : Nat) : List MStr → MDom → Arena → Out (MDom × Arena)
  | [], M, a => .ok (M, a)
  | b :: bs, M, a => do
    let (M, a) ← memAddBoolProperty n b M a
    memAddBools n bs M a

/-- The property loop of `flo_html_parseDocumentElement`, `src/parser.c:370-374`. -/
def memAddProps (n : Nat) : List (MStr × MStr) → MDom → Arena → Out (MDom × Arena)
  | [], M, a => .ok (M, a)
  | (k, v) :: ps, M, a => do
    let (M, a) ← memAddProperty n k v M a
    memAddProps n ps M a

/-- `flo_html_parseDocumentElement`, `src/parser.c:356-377`. -/
def memParseDocumentElement (doc : MDocNode) (M : MDom) (a : Arena) : Out (Nat × MDom × Arena) := do
  let (id, M, a) ← memCreateNode .document M a
  let (M, a) ← memSetTag doc.tag id doc.isPaired M a
  let (M, a) ← memAddBools id doc.boolProps M a
  let (M, a) ← memAddProps id doc.props M a
  .ok (id, M, a)

/-- `flo_html_parseExtra`, `src/parser.c:348-354`. -/
def memParseExtra (junk : Nat → Out Bool) (html : MStr) (M : MDom) (a : Arena) : Out MParseRes := memParse junk html M a errorID []

/-! ## Removing -/

/-- The previous sibling's row, `src/dom/deletion.c:22-29`. -/
def memUnlinkPrev (prev next : Option Nat) (M : MDom) (a : Arena) : Out Arena :=
  match prev with
  | none => .ok a
  | some v =>
    match next with
    | none => arrPoke 4 v 0 (encRow (0, 0)) M.nn a
    | some i => arrPoke 4 v 2 (leBytes 2 (rowAt (memRows M.nn a.mem) i).2) M.nn a

/-- The parent's rows, `src/dom/deletion.c:31-47`. -/
def memUnlinkParent (n : Nat) (par next : Option Nat) (M : MDom) (a : Arena) : Out Arena :=
  match par with
  | none => .ok a
  | some i => do
    let parentID := (rowAt (memRows M.pc a.mem) i).1
    let a ← arrPoke 4 i 0 (encRow (0, 0)) M.pc a
    match getFirstChildNode parentID (memTables M a.mem) with
    | none => .ub .nullDeref
    | some k =>
      if (rowAt (memRows M.fc a.mem) k).2 = n then
        match next with
        | none => arrPoke 4 k 0 (encRow (0, 0)) M.fc a
        | some j => arrPoke 4 k 2 (leBytes 2 (rowAt (memRows M.nn a.mem) j).2) M.fc a
      else .ok a

/-- The node's own row, `src/dom/deletion.c:49-52`. -/
def memUnlinkNext (next : Option Nat) (M : MDom) (a : Arena) : Out Arena :=
  match next with
  | none => .ok a
  | some j => arrPoke 4 j 0 (encRow (0, 0)) M.nn a

/-- The unlinking part of `flo_html_removeNode`, `src/dom/deletion.c:13-54`.  The pointers are indices into tables that are not resized in
between. -/
def memUnlinkNode (n : Nat) (M : MDom) (a : Arena) : Out Arena := do
  let id ← memNodeID n M a.mem
  let T := memTables M a.mem
  let next := getNextNode id T
  let par := getParentNode id T
  let prev := getPreviousNode id T
  let a ← memUnlinkPrev prev next M a
  let a ← memUnlinkParent n par next M a
  let a ← memUnlinkNext next M a
  let a ← arrPoke 24 n 8 (leBytes 2 0) M.nodes a
  arrPoke 24 n 4 (leBytes 4 NodeType.removed.code) M.nodes a

/-- The loop of `flo_html_removeChildren`, `src/dom/deletion.c:60-66`. -/
def memRemoveChildrenLoop (rm : Nat → Arena → Out Arena) (M : MDom) (n : Nat) : Nat → Arena → Out Arena
  | 0, _ => .hang
  | k + 1, a =>
    let child := getFirstChild n (memTables M a.mem)
    if child > 0 then do
      let a ← rm child a
      memRemoveChildrenLoop rm M n k a
    else .ok a

/-- `flo_html_removeNode`, `src/dom/deletion.c:10-55`; the fuel bounds the recursion depth. -/
def memRemoveNodeF (M : MDom) : Nat → Nat → Arena → Out Arena
  | 0, _, _ => .hang
  | f + 1, n, a => do
    let a ← memRemoveChildrenLoop (memRemoveNodeF M f) M n (M.nodes.len.toNat + 1) a
    memUnlinkNode n M a

/-- `flo_html_removeNode`, `src/dom/deletion.c:10-55`. -/
def memRemoveNode (n : Nat) (M : MDom) (a : Arena) : Out Arena := memRemoveNodeF M (M.nodes.len.toNat + 1) n a

/-- `flo_html_removeChildren`, `src/dom/deletion.c:60-66`. -/
def memRemoveChildren (n : Nat) (M : MDom) (a : Arena) : Out Arena :=
  memRemoveChildrenLoop (memRemoveNodeF M (M.nodes.len.toNat + 1)) M n (M.nodes.len.toNat + 1) a

/-- `flo_html_setTextContent`, `src/dom/modification.c:93-103`. -/
def memSetTextContent (n : Nat) (text : MStr) (M : MDom) (a : Arena) : Out (MDom × Arena) := do
  let a ← memRemoveChildren n M a
  let (id, M, a) ← memParseTextElement text M a
  let (M, a) ← pushFc (n, id) M a
  pushPc (n, id) M a

/-- The loop of `flo_html_connectOtherNodesToParent`, `src/dom/dom-util.c:44-49`. -/
def memConnectLoop (parent : Nat) : Nat → Nat → MDom → Arena → Out (MDom × Arena)
  | 0, _, _, _ => .hang
  | f + 1, other, M, a =>
    if other > 0 then do
      let (M, a) ← pushPc (parent, other) M a
      memConnectLoop parent f (getNext other (memTables M a.mem)) M a
    else .ok (M, a)

/-- `flo_html_connectOtherNodesToParent`, `src/dom/dom-util.c:40-50`. -/
def memConnectOthers (parent lastAdded : Nat) (M : MDom) (a : Arena) : Out (MDom × Arena) :=
  memConnectLoop parent (M.nn.len.toNat + 2) (getNext lastAdded (memTables M a.mem)) M a

/-- `(flo_html_node_id)dom->nodes.len`, `src/dom/appendix.c:141`. -/
def memNewID (M : MDom) : Nat := M.nodes.len.toNat % 65536

/-! ## Appending -/

/-- `updateReferences` of `src/dom/appendix.c:77-101`. -/
def memAppendRefs (parent new : Nat) (M : MDom) (a : Arena) : Out (MDom × Arena) :=
  match getFirstChildNode parent (memTables M a.mem) with
  | none => do
    let (M, a) ← pushFc (parent, new) M a
    let (M, a) ← pushPc (parent, new) M a
    memConnectOthers parent new M a
  | some i => do
    let last ← getLastNext (rowAt (memRows M.fc a.mem) i).2 (memTables M a.mem)
    let (M, a) ← pushNn (last, new) M a
    let (M, a) ← pushPc (parent, new) M a
    memConnectOthers parent new M a

/-- `flo_html_appendDocumentNode`, `src/dom/appendix.c:103-114`. -/
def memAppendDoc (parent : Nat) (doc : MDocNode) (M : MDom) (a : Arena) : Out (Nat × MDom × Arena) := do
  let (id, M, a) ← memParseDocumentElement doc M a
  if id = 0 then .ok (0, M, a)
  else do
    let (M, a) ← memAppendRefs parent id M a
    .ok (id, M, a)

/-- `flo_html_appendTextNode`, `src/dom/appendix.c:116-135`. -/
def memAppendText (parent : Nat) (text : MStr) (M : MDom) (a : Arena) : Out (Nat × MDom × Arena) := do
  let (id, M, a) ← memParseTextElement text M a
  if id = 0 then .ok (0, M, a)
  else
    let first := getFirstChild parent (memTables M a.mem)
    if first > 0 then do
      let child ← getLastNext first (memTables M a.mem)
      let (merged, a) ← memTryMerge child id true M a
      if merged then do
        let a ← memRemoveNode id M a
        .ok (child, M, a)
      else do
        let (M, a) ← memAppendRefs parent id M a
        .ok (id, M, a)
    else do
      let (M, a) ← memAppendRefs parent id M a
      .ok (id, M, a)

/-- `flo_html_appendHTMLFromString`, `src/dom/appendix.c:137-183`. -/
def memAppendHTML (junk : Nat → Out Bool) (parent : Nat) (html : MStr) (M : MDom) (a : Arena) : Out (Nat × MDom × Arena) := do
  let firstNew := memNewID M
  let r ← memParseExtra junk html M a
  let M := r.dom
  let a := r.arena
  if !r.ok then .ok (0, M, a)
  else
    let firstChild := getFirstChild parent (memTables M a.mem)
    if firstChild > 0 then do
      let lastNew ← getLastNext firstNew (memTables M a.mem)
      let isText ← memIsText firstNew M a.mem
      if lastNew > firstNew then
        if isText then do
          let lastNext ← getLastNext firstChild (memTables M a.mem)
          let id ← memNodeID firstNew M a.mem
          let (merged, a) ← memTryMerge lastNext id true M a
          if merged then do
            let second := getNext firstNew (memTables M a.mem)
            let a ← memRemoveNode firstNew M a
            let (M, a) ← memAppendRefs parent second M a
            .ok (second, M, a)
          else do
            let (M, a) ← memAppendRefs parent firstNew M a
            .ok (firstNew, M, a)
        else do
          let (M, a) ← memAppendRefs parent firstNew M a
          .ok (firstNew, M, a)
      else
        if isText then do
          let lastNext ← getLastNext firstChild (memTables M a.mem)
          let id ← memNodeID firstNew M a.mem
          let (merged, a) ← memTryMerge lastNext id true M a
          if merged then do
            let a ← memRemoveNode firstNew M a
            .ok (lastNext, M, a)
          else do
            let (M, a) ← memAppendRefs parent firstNew M a
            .ok (firstNew, M, a)
        else do
          let (M, a) ← memAppendRefs parent firstNew M a
          .ok (firstNew, M, a)
    else do
      let (M, a) ← memAppendRefs parent firstNew M a
      .ok (firstNew, M, a)

/-! ## Prepending -/

/-- `updateReferences` of `src/dom/prependix.c:78-105`. -/
def memPrependRefs (parent new : Nat) (M : MDom) (a : Arena) : Out (MDom × Arena) :=
  match getFirstChildNode parent (memTables M a.mem) with
  | none => do
    let (M, a) ← pushFc (parent, new) M a
    let (M, a) ← pushPc (parent, new) M a
    memConnectOthers parent new M a
  | some i => do
    let previousFirst := (rowAt (memRows M.fc a.mem) i).2
    let a ← arrPoke 4 i 2 (leBytes 2 new) M.fc a
    let lastNew ← getLastNext new (memTables M a.mem)
    let (M, a) ← pushNn (lastNew, previousFirst) M a
    let (M, a) ← pushPc (parent, new) M a
    memConnectOthers parent new M a

/-- `flo_html_prependDocumentNode`, `src/dom/prependix.c:107-118`. -/
def memPrependDoc (parent : Nat) (doc : MDocNode) (M : MDom) (a : Arena) : Out (Nat × MDom × Arena) := do
  let (id, M, a) ← memParseDocumentElement doc M a
  if id = 0 then .ok (0, M, a)
  else do
    let (M, a) ← memPrependRefs parent id M a
    .ok (id, M, a)

/-- `flo_html_prependTextNode`, `src/dom/prependix.c:120-139`. -/
def memPrependText (parent : Nat) (text : MStr) (M : MDom) (a : Arena) : Out (Nat × MDom × Arena) := do
  let (id, M, a) ← memParseTextElement text M a
  if id = 0 then .ok (0, M, a)
  else
    let child := getFirstChild parent (memTables M a.mem)
    if child > 0 then do
      let (merged, a) ← memTryMerge child id false M a
      if merged then do
        let a ← memRemoveNode id M a
        .ok (id, M, a)
      else do
        let (M, a) ← memPrependRefs parent id M a
        .ok (id, M, a)
    else do
      let (M, a) ← memPrependRefs parent id M a
      .ok (id, M, a)

/-- `flo_html_prependHTMLFromString`, `src/dom/prependix.c:141-178`. -/
def memPrependHTML (junk : Nat → Out Bool) (parent : Nat) (html : MStr) (M : MDom) (a : Arena) : Out (Nat × MDom × Arena) := do
  let firstNew := memNewID M
  let r ← memParseExtra junk html M a
  let M := r.dom
  let a := r.arena
  if !r.ok then .ok (0, M, a)
  else
    let firstChild := getFirstChild parent (memTables M a.mem)
    if firstChild > 0 then do
      let lastNew ← getLastNext firstNew (memTables M a.mem)
      let isText ← memIsText lastNew M a.mem
      if lastNew > firstNew then
        if isText then do
          let (merged, a) ← memTryMerge firstChild lastNew false M a
          if merged then do
            let a ← memRemoveNode lastNew M a
            let (M, a) ← memPrependRefs parent firstNew M a
            .ok (firstNew, M, a)
          else do
            let (M, a) ← memPrependRefs parent firstNew M a
            .ok (firstNew, M, a)
        else do
          let (M, a) ← memPrependRefs parent firstNew M a
          .ok (firstNew, M, a)
      else do
        let isText ← memIsText firstNew M a.mem
        if isText then do
          let (merged, a) ← memTryMerge firstChild firstNew false M a
          if merged then do
            let a ← memRemoveNode firstNew M a
            .ok (firstChild, M, a)
          else do
            let (M, a) ← memPrependRefs parent firstNew M a
            .ok (firstNew, M, a)
        else do
          let (M, a) ← memPrependRefs parent firstNew M a
          .ok (firstNew, M, a)
    else do
      let (M, a) ← memPrependRefs parent firstNew M a
      .ok (firstNew, M, a)

/-! ## Replacing -/

/-- The loop of `updateReferences` of `src/dom/replacement.c:108-114`.  `q` is the address `parentChildNode`: the pushes may move the array,
but the loop goes on reading `parentID` there. -/
def memReplaceConnect (q : Int) : Nat → Nat → MDom → Arena → Out (MDom × Arena)
  | 0, _, _, _ => .hang
  | f + 1, other, M, a =>
    if other > 0 then do
      let (M, a) ← pushPc (readLE a.mem q 2, other) M a
      memReplaceConnect q f (getNext other (memTables M a.mem)) M a
    else .ok (M, a)

/-- The row of the previous sibling or of the parent's first child, `src/dom/replacement.c:98-104`. -/
def memReplaceFirst (prev first : Option Nat) (new : Nat) (M : MDom) (a : Arena) : Out Arena :=
  match prev with
  | some v => arrPoke 4 v 2 (leBytes 2 new) M.nn a
  | none =>
    match first with
    | some k => arrPoke 4 k 2 (leBytes 2 new) M.fc a
    | none => .ok a

/-- The parent rows, `src/dom/replacement.c:106-115`. -/
def memReplaceParent (par : Option Nat) (new : Nat) (M : MDom) (a : Arena) : Out (MDom × Arena) :=
  match par with
  | none => .ok (M, a)
  | some i => do
    let a ← arrPoke 4 i 2 (leBytes 2 new) M.pc a
    memReplaceConnect (bufPtr M.pc.buf + 4 * (i : Int)) (M.nn.len.toNat + 2) (getNext new (memTables M a.mem)) M a

/-- The next sibling's row, `src/dom/replacement.c:117-119`. -/
def memReplaceNext (next : Option Nat) (last : Nat) (M : MDom) (a : Arena) : Out Arena :=
  match next with
  | none => .ok a
  | some j => arrPoke 4 j 0 (leBytes 2 last) M.nn a

/-- The first-child row of the parent, `src/dom/replacement.c:86-90`. -/
def parentFirst (par : Option Nat) (T : Dom) : Option Nat :=
  match par with
  | none => none
  | some i => getFirstChildNode (rowAt T.pc i).1 T

/-- `updateReferences` of `src/dom/replacement.c:78-122`. -/
def memReplaceRefs (old new : Nat) (M : MDom) (a : Arena) : Out (MDom × Arena) := do
  let _ ← memNode old M
  let T := memTables M a.mem
  let lastNew ← getLastNext new T
  let par := getParentNode old T
  let prev := getPreviousNode old T
  let next := getNextNode old T
  let a ← memReplaceFirst prev (parentFirst par T) new M a
  let (M, a) ← memReplaceParent par new M a
  let a ← memReplaceNext next lastNew M a
  let a ← arrPoke 24 old 4 (leBytes 4 NodeType.removed.code) M.nodes a
  .ok (M, a)

/-- `flo_html_replaceWithDocumentNode`, `src/dom/replacement.c:124-135`. -/
def memReplaceDoc (old : Nat) (doc : MDocNode) (M : MDom) (a : Arena) : Out (Nat × MDom × Arena) := do
  let (id, M, a) ← memParseDocumentElement doc M a
  if id = 0 then .ok (0, M, a)
  else do
    let (M, a) ← memReplaceRefs old id M a
    .ok (id, M, a)

/-- The first attempt of `tryMergeBothSides`, `src/dom/replacement.c:143-151`. -/
def memMergePrev (old new : Nat) (M : MDom) (a : Arena) : Out (Bool × Arena) :=
  match getPreviousNode old (memTables M a.mem) with
  | some v => memTryMerge (rowAt (memRows M.nn a.mem) v).1 new true M a
  | none => .ok (false, a)

/-- The second attempt of `tryMergeBothSides`, `src/dom/replacement.c:153-158`. -/
def memMergeNext (old new : Nat) (M : MDom) (a : Arena) : Out (Bool × Arena) :=
  match getNextNode old (memTables M a.mem) with
  | some j => memTryMerge (rowAt (memRows M.nn a.mem) j).2 new false M a
  | none => .ok (false, a)

/-- `tryMergeBothSides`, `src/dom/replacement.c:137-162`. -/
def memMergeBoth (old new : Nat) (M : MDom) (a : Arena) : Out (Bool × Arena) := do
  let isText ← memIsText new M a.mem
  let id ← memNodeID new M a.mem
  if isText then do
    let (merged, a) ← memMergePrev old id M a
    if merged then .ok (true, a)
    else memMergeNext old id M a
  else .ok (false, a)

/-- `flo_html_replaceWithTextNode`, `src/dom/replacement.c:164-182`. -/
def memReplaceText (old : Nat) (text : MStr) (M : MDom) (a : Arena) : Out (Nat × MDom × Arena) := do
  let (id, M, a) ← memParseTextElement text M a
  if id = 0 then .ok (0, M, a)
  else do
    let (merged, a) ← memMergeBoth old id M a
    if merged then do
      let a ← memRemoveNode id M a
      let a ← memRemoveNode old M a
      .ok (id, M, a)
    else do
      let (M, a) ← memReplaceRefs old id M a
      .ok (id, M, a)

/-- The first new node is merged into the previous sibling, `src/dom/replacement.c:200-213`. -/
def memMergeFirst (old firstNew : Nat) (M : MDom) (a : Arena) : Out (Nat × Arena) := do
  let isText ← memIsText firstNew M a.mem
  let id ← memNodeID firstNew M a.mem
  if isText then do
    let (merged, a) ← memMergePrev old id M a
    if merged then do
      let second := getNext firstNew (memTables M a.mem)
      let a ← memRemoveNode firstNew M a
      .ok (second, a)
    else .ok (firstNew, a)
  else .ok (firstNew, a)

/-- The last new node is merged into the next sibling, `src/dom/replacement.c:215-225`. -/
def memMergeLast (old lastNew : Nat) (M : MDom) (a : Arena) : Out Arena := do
  let isText ← memIsText lastNew M a.mem
  if isText then do
    let (merged, a) ← memMergeNext old lastNew M a
    if merged then memRemoveNode lastNew M a else .ok a
  else .ok a

/-- The value returned after a single text has been merged, `src/dom/replacement.c:232`. -/
def memReplaceReturn (previous : Option Nat) (M : MDom) (a : Arena) : Out (Nat × MDom × Arena) :=
  match previous with
  | some v => .ok ((rowAt (memRows M.nn a.mem) v).1, M, a)
  | none => .ub .nullDeref

/-- `flo_html_replaceWithHTMLFromString`, `src/dom/replacement.c:184-239`. -/
def memReplaceHTML (junk : Nat → Out Bool) (old : Nat) (html : MStr) (M : MDom) (a : Arena) : Out (Nat × MDom × Arena) := do
  let firstNew := memNewID M
  let r ← memParseExtra junk html M a
  let M := r.dom
  let a := r.arena
  if !r.ok then .ok (0, M, a)
  else do
    let lastNew ← getLastNext firstNew (memTables M a.mem)
    let previous := getPreviousNode old (memTables M a.mem)
    if lastNew > firstNew then do
      let (firstNew, a) ← memMergeFirst old firstNew M a
      let a ← memMergeLast old lastNew M a
      let (M, a) ← memReplaceRefs old firstNew M a
      .ok (firstNew, M, a)
    else do
      let (merged, a) ← memMergeBoth old firstNew M a
      if merged then do
        let a ← memRemoveNode firstNew M a
        let a ← memRemoveNode old M a
        memReplaceReturn previous M a
      else do
        let (M, a) ← memReplaceRefs old firstNew M a
        .ok (firstNew, M, a)

end Flo
