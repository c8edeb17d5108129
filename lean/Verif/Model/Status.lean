import Verif.Model.Files
import Verif.Model.Trie
import Verif.Model.Compare
/-!
# The reports: `flo_html_printDomStatus` and `flo_html_printFirstDifference`

Sources: `src/dom/writing.c:125-307`, `src/dom/comparison.c:35-54,98-263,344-369`,
`include/flo/html-parser/node/node.h:23-33`, `util/src/hash/hash-comparison-status.c`.

The standard output and error buffers are arguments (`WBuf`).  Identifiers, 16-bit in C, are natural numbers; they are
converted to the 64-bit argument of the number printing functions.  Memory for the iterators is assumed to be available.
-/
namespace Flo

/-- The number of nodes of a name table (fuel for iterating over it, `include/flo/html-parser/util/string-auto-uint16-map.h:42-51`). -/
def ATrie.count : ATrie → Nat
  | .nil => 0
  | .node _ _ c0 c1 c2 c3 => 1 + c0.count + c1.count + c2.count + c3.count

/-- The entries `FLO_FOR_EACH_TRIE_STRING_AUTO_UINT16` visits, `src/dom/writing.c:149`,
`include/flo/html-parser/util/string-auto-uint16-map.h:42-51`. -/
def tableEntries (m : AutoMap) : Out (List (Str × Nat)) :=
  forEachTrie (fun e => e.2 == 0) (6 * m.root.count + 1) (m.root.count + 1) (newIter m.root.toQ)

/-- The flags `0`, `util/include/flo/util/log.h:85-102`. -/
abbrev fl0 : LFlags := ⟨false, false⟩
/-- `FLO_NEWLINE`, `util/include/flo/util/log.h:17`. -/
abbrev flNl : LFlags := ⟨true, false⟩

/-- `FLO_INFO(s, FLO_NEWLINE)` for a string, `util/include/flo/util/log.h:85-130`. -/
def logLine (s : Str) (b : WBuf) : Out WBuf := appendToBuffer s flNl b

/-- `flo_html_nodeTypeToString`, `include/flo/html-parser/node/node.h:23-33`. -/
def nodeTypeText : NodeType → Str
  | .root => b!"Root"
  | .document => b!"Document"
  | .text => b!"Text"
  | .removed => b!"Removed"
  | .error => b!"Error"

/-- The loop of `printStringAutoUint16Map`, `src/dom/writing.c:149-155`. -/
def statusEntries : List (Str × Nat) → WBuf → Out WBuf
  | [], b => .ok b
  | e :: es, b => do
    let b ← logStr b!"string = " b
    let b ← appendMinSize e.1 30 fl0 b
    let b ← logStr b!" with id = " b
    let b ← appendUint64 (UInt64.ofNat e.2) flNl b
    statusEntries es b

/-- `printStringAutoUint16Map`, `src/dom/writing.c:146-157`.  (The iterator runs before the printing here, interleaved with it in
the source.) -/
def statusMap (m : AutoMap) (b : WBuf) : Out WBuf := do
  let es ← tableEntries m
  let b ← statusEntries es b
  logStr b!"\n" b

/-- The loop of `printflo_html_BasicRegistry`, `src/dom/writing.c:133-140`. -/
def statusRegistryLoop (i : Nat) : List Str → WBuf → Out WBuf
  | [], b => .ok b
  | s :: ss, b => do
    let b ← logStr b!"ID: " b
    let b ← appendPtrdiffMinSize (i : Int) 3 fl0 b
    let b ← logStr b!" value: " b
    let b ← logLine s b
    statusRegistryLoop (i + 1) ss b

/-- `printflo_html_BasicRegistry`, `src/dom/writing.c:126-143`. -/
def statusRegistry (name : Str) (reg : List Str) (b : WBuf) : Out WBuf := do
  let b ← logStr b!"registration nodes inside DOM for registry: " b
  let b ← logLine name b
  let b ← logStr b!"Total number of nodes: " b
  let b ← appendPtrdiff (reg.length : Int) flNl b
  let b ← statusRegistryLoop 0 reg b
  logStr b!"\n" b

/-- The loop over the nodes, `src/dom/writing.c:182-204`. -/
def statusNodes (i : Nat) : List Node → WBuf → Out WBuf
  | [], b => .ok b
  | nd :: nds, b => do
    let b ← (if nd.type = .document then do
        let b ← logStr b!"Node ID: " b
        let b ← appendUint64MinSize (UInt64.ofNat i) 5 fl0 b
        let b ← logStr b!" Node type: " b
        let b ← appendMinSize (nodeTypeText nd.type) 10 fl0 b
        let b ← logStr b!" with tag ID: " b
        let t ← nd.docTag
        appendUint64 (UInt64.ofNat t) flNl b
      else do
        let b ← logStr b!"Node ID: " b
        let b ← appendUint64MinSize (UInt64.ofNat i) 5 fl0 b
        let b ← logStr b!" Node type: " b
        appendMinSize (nodeTypeText nd.type) 10 flNl b)
    statusNodes (i + 1) nds b

/-- The loop over the tag registry, `src/dom/writing.c:211-222`. -/
def statusTags (i : Nat) : List (Str × Bool) → WBuf → Out WBuf
  | [], b => .ok b
  | r :: rs, b => do
    let b ← logStr b!"tag ID: " b
    let b ← appendUint64MinSize (UInt64.ofNat i) 5 fl0 b
    let b ← logStr b!" tag: " b
    let b ← appendMinSize r.1 20 fl0 b
    let b ← logStr b!" isPaired: " b
    let b ← logLine (boolText r.2) b
    statusTags (i + 1) rs b

/-- The loop over `boolProps`, `src/dom/writing.c:235-243`. -/
def statusBools : List Row → WBuf → Out WBuf
  | [], b => .ok b
  | r :: rs, b => do
    let b ← logStr b!"node ID: " b
    let b ← appendPtrdiffMinSize (r.1 : Int) 3 fl0 b
    let b ← logStr b!" prop ID: " b
    let b ← appendUint64 (UInt64.ofNat r.2) flNl b
    statusBools rs b

/-- The loop over `props`, `src/dom/writing.c:249-259`. -/
def statusProps : List PropRow → WBuf → Out WBuf
  | [], b => .ok b
  | r :: rs, b => do
    let b ← logStr b!"node ID: " b
    let b ← appendPtrdiffMinSize (r.node : Int) 3 fl0 b
    let b ← logStr b!" key ID: " b
    let b ← appendPtrdiffMinSize (r.key : Int) 3 fl0 b
    let b ← logStr b!" value ID: " b
    let b ← appendUint64 (UInt64.ofNat r.value) flNl b
    statusProps rs b

/-- The loops over `parentFirstChilds`, `parentChilds` and `nextNodes`, `src/dom/writing.c:265-274,280-288,294-303`: one
function, with the two captions as arguments. -/
def statusRows (first second : Str) : List Row → WBuf → Out WBuf
  | [], b => .ok b
  | r :: rs, b => do
    let b ← logStr first b
    let b ← appendUint64MinSize (UInt64.ofNat r.1) 5 fl0 b
    let b ← logStr second b
    let b ← appendUint64MinSize (UInt64.ofNat r.2) 5 flNl b
    statusRows first second rs b

/-- The name tables, first part of `flo_html_printDomStatus`, `src/dom/writing.c:161-175`. -/
def statusNames (d : Dom) (b : WBuf) : Out WBuf := do
  let b ← logStr b!"printing DOM status...\n\n" b
  let b ← logStr b!"printing property status...\n" b
  let b ← logStr b!"printing keys...\n" b
  let b ← statusMap d.keyMap b
  let b ← logStr b!"printing values...\n" b
  let b ← statusMap d.valMap b
  let b ← logStr b!"printing bool property status...\n" b
  let b ← statusMap d.boolMap b
  let b ← logStr b!"printing tags status...\n" b
  statusMap d.tagMap b

/-- Nodes and registries, second part of `flo_html_printDomStatus`, `src/dom/writing.c:177-230`. -/
def statusNodesPart (d : Dom) (b : WBuf) : Out WBuf := do
  let b ← logStr b!"Printing DOM contents...\n" b
  let b ← logStr b!"Nodes inside DOM...\n" b
  let b ← logStr b!"Total number of nodes: " b
  let b ← appendPtrdiff (d.nodes.length : Int) flNl b
  let b ← statusNodes 0 d.nodes b
  let b ← logStr b!"\n" b
  let b ← logStr b!"tag registration nodes inside DOM...\n" b
  let b ← logStr b!"total number of tag registration nodes: " b
  let b ← appendPtrdiff (d.tagReg.length : Int) flNl b
  let b ← statusTags 0 d.tagReg b
  let b ← logStr b!"\n" b
  let b ← statusRegistry b!"bool props" d.boolReg b
  let b ← statusRegistry b!"key props" d.keyReg b
  statusRegistry b!"value props" d.valReg b

/-- Attributes, third part of `flo_html_printDomStatus`, `src/dom/writing.c:232-260`. -/
def statusAttrsPart (d : Dom) (b : WBuf) : Out WBuf := do
  let b ← logStr b!"boolean property nodes inside DOM...\n" b
  let b ← logStr b!"total number of boolean properties: " b
  let b ← appendPtrdiff (d.boolProps.length : Int) flNl b
  let b ← statusBools d.boolProps b
  let b ← logStr b!"\n" b
  let b ← logStr b!"key-value property nodes inside DOM...\n" b
  let b ← logStr b!"total number of key-value properties: " b
  let b ← appendPtrdiff (d.props.length : Int) flNl b
  let b ← statusProps d.props b
  logStr b!"\n" b

/-- Links, last part of `flo_html_printDomStatus`, `src/dom/writing.c:262-305`. -/
def statusLinksPart (d : Dom) (b : WBuf) : Out WBuf := do
  let b ← logStr b!"parent-first-child inside DOM...\n" b
  let b ← logStr b!"total number of parent-first-child: " b
  let b ← appendPtrdiff (d.fc.length : Int) flNl b
  let b ← statusRows b!"parent node ID: " b!" first child node ID: " d.fc b
  let b ← logStr b!"\n" b
  let b ← logStr b!"parent-child inside DOM...\n" b
  let b ← logStr b!"total number of parent-child: " b
  let b ← appendPtrdiff (d.pc.length : Int) flNl b
  let b ← statusRows b!"parent: " b!" child: " d.pc b
  let b ← logStr b!"\n" b
  let b ← logStr b!"next nodes inside DOM...\n" b
  let b ← logStr b!"total number of next nodes: " b
  let b ← appendPtrdiff (d.nn.length : Int) flNl b
  let b ← statusRows b!"current node: " b!" next node: " d.nn b
  logStr b!"\n\n" b

/-- `flo_html_printDomStatus`, `src/dom/writing.c:159-307`, with the flush of `FLO_FLUSH_AFTER` (line 160). -/
def printDomStatus (d : Dom) (b : WBuf) : Out WBuf := do
  let b ← statusNames d b
  let b ← statusNodesPart d b
  let b ← statusAttrsPart d b
  let b ← statusLinksPart d b
  flushIgnore b

/-! ## `flo_html_printFirstDifference` -/

/-- `flo_hashComparisonStatusToString`, `util/src/hash/hash-comparison-status.c:3-12`, on the two statuses that
occur (as `CStatus`, see `equalsStringSet`). -/
def hashStatusText : CStatus → Str
  | .differentSizes => b!"Collections have different sizes"
  | .differentContent => b!"Collections have different content"
  | _ => b!"Success"

/-- The loop `FLO_FOR_EACH_MSI_STRING(element, set) { FLO_ERROR(element, FLO_NEWLINE); }`, `src/dom/comparison.c:43-45,50-52`. -/
def logLines : List Str → WBuf → Out WBuf
  | [], b => .ok b
  | s :: ss, b => do
    let b ← logLine s b
    logLines ss b

/-- `printAttributes`, `src/dom/comparison.c:35-54`. -/
def printAttributes (t1 : Nat) (s1 : StrSet) (d1 : Dom) (t2 : Nat) (s2 : StrSet) (d2 : Dom) (b : WBuf) : Out WBuf := do
  let b ← logStr b!"Printing certain attributes of node 1 with tag " b
  let r1 ← regAt d1.tagReg t1
  let b ← logLine r1.1 b
  let b ← logLines (s1.toList []) b
  let b ← logStr b!"Printing certain attributes of node 2 with tag " b
  let r2 ← regAt d2.tagReg t2
  let b ← logLine r2.1 b
  let b ← logLines (s2.toList []) b
  flushIgnore b

/-- The report on two different sets of attributes: status, caption, elements (`src/dom/comparison.c:114-120,128-135,156-162`). -/
def printSets (st : CStatus) (caption : Str) (x : Node) (s1 : StrSet) (d1 : Dom) (y : Node) (s2 : StrSet) (d2 : Dom) (b : WBuf) : Out WBuf := do
  let b ← logLine (hashStatusText st) b
  let b ← logStr caption b
  let b ← flushIgnore b
  let t1 ← x.docTag
  let t2 ← y.docTag
  printAttributes t1 s1 d1 t2 s2 d2 b

/-- `compareProps` with `printDifferences`, `src/dom/comparison.c:98-141`. -/
def comparePropsP (n1 : Nat) (x : Node) (d1 : Dom) (n2 : Nat) (y : Node) (d2 : Dom) (b : WBuf) : Out (CStatus × WBuf) := do
  let s1 ← fillPropsLoop n1 d1 d1.props StrSet.fresh StrSet.fresh
  let s2 ← fillPropsLoop n2 d2 d2.props StrSet.fresh StrSet.fresh
  let r ← equalsStringSet s1.1 s2.1
  if r ≠ .success then do
    let b ← printSets r b!"Nodes contain different key props\n" x s1.1 d1 y s2.1 d2 b
    .ok (r, b)
  else do
    let r ← equalsStringSet s1.2 s2.2
    if r ≠ .success then do
      let b ← printSets r b!"Nodes contain different value props\n" x s1.2 d1 y s2.2 d2 b
      .ok (r, b)
    else .ok (.success, b)

/-- `compareBoolProps` with `printDifferences`, `src/dom/comparison.c:143-168`. -/
def compareBoolPropsP (n1 : Nat) (x : Node) (d1 : Dom) (n2 : Nat) (y : Node) (d2 : Dom) (b : WBuf) : Out (CStatus × WBuf) := do
  let s1 ← fillBoolLoop n1 d1 d1.boolProps StrSet.fresh
  let s2 ← fillBoolLoop n2 d2 d2.boolProps StrSet.fresh
  let r ← equalsStringSet s1 s2
  if r ≠ .success then do
    let b ← printSets r b!"Nodes contain different bool props\n" x s1 d1 y s2 d2 b
    .ok (r, b)
  else .ok (.success, b)

/-- A message with two values in it and a flush behind it, as printed by the branches of `compareTags`,
`src/dom/comparison.c:177-182,197-202,219-228,235-241`. -/
def printTwo (p s q t : Str) (b : WBuf) : Out WBuf := do
  let b ← logStr p b
  let b ← logStr s b
  let b ← logStr q b
  let b ← logLine t b
  flushIgnore b

/-- The message about a single and a paired node, `src/dom/comparison.c:214-228`. -/
def printSingle (r1 r2 : Str × Bool) (b : WBuf) : Out WBuf := do
  let single : Str := if !r2.2 then b!"2" else b!"1"
  let b ← logStr b!"Uncomparable nodes: single node and paired node.\nFound single node in node " b
  let b ← logStr single b
  printTwo b!".\nnode 1 tag: " r1.1 b!"\nnode 2 tag: " r2.1 b

/-- `compareTags` with `printDifferences`, `src/dom/comparison.c:170-263`.  For different tags the source prints the first tag
twice (lines 238 and 240). -/
def compareTagsP (x : Node) (d1 : Dom) (y : Node) (d2 : Dom) (b : WBuf) : Out (CStatus × WBuf) :=
  if x.type ≠ y.type then do
    let b ← printTwo b!"Uncomparable nodes:\nnode 1 type: " (nodeTypeText x.type) b!"\nnode 2 type: " (nodeTypeText y.type) b
    .ok (.differentNodeType, b)
  else
    match x.type with
    | .text => do
      let t1 ← x.getText
      let t2 ← y.getText
      if strEq t1 t2 then .ok (.success, b)
      else do
        let b ← printTwo b!"Different text nodes:\nnode 1: " t1 b!"\nnode 2: " t2 b
        .ok (.differentContent, b)
    | .document => do
      let i1 ← x.docTag
      let i2 ← y.docTag
      let r1 ← regAt d1.tagReg i1
      let r2 ← regAt d2.tagReg i2
      if r1.2 ≠ r2.2 then do
        let b ← printSingle r1 r2 b
        .ok (.differentNodeType, b)
      else if !strEq r1.1 r2.1 then do
        let b ← printTwo b!"Nodes have different tags.\nnode 1 tag: " r1.1 b!"\nnode 2 tag: " r1.1 b
        .ok (.differentContent, b)
      else .ok (.success, b)
    | .root => .ok (.success, b)
    | t => do
      let b ← logStr b!"Comparison not implemented for this node type. Node type: " b
      let b ← logLine (nodeTypeText t) b
      let b ← flushIgnore b
      .ok (.differentNodeType, b)

/-- The comparison of the attributes in `flo_html_printFirstDifference`, `src/dom/comparison.c:354-363`: the status is `success`
iff the function goes on. -/
def printAttrDifference (n1 : Nat) (x : Node) (d1 : Dom) (n2 : Nat) (y : Node) (d2 : Dom) (b : WBuf) : Out (CStatus × WBuf) :=
  if x.type = .document then do
    let r ← compareBoolPropsP n1 x d1 n2 y d2 b
    if r.1 ≠ .success then .ok r else comparePropsP n1 x d1 n2 y d2 r.2
  else .ok (.success, b)

/-- `flo_html_printFirstDifference`, `src/dom/comparison.c:344-369`. -/
def printFirstDifference (n1 : Nat) (d1 : Dom) (n2 : Nat) (d2 : Dom) (b : WBuf) : Out WBuf := do
  let x ← d1.node n1
  let y ← d2.node n2
  let r ← compareTagsP x d1 y d2 b
  if r.1 ≠ .success then .ok r.2
  else do
    let r ← printAttrDifference n1 x d1 n2 y d2 r.2
    if r.1 ≠ .success then .ok r.2
    else appendToBuffer b!"Could not find any differences for the supplied nodes & documents combination.\n" ⟨false, true⟩ r.2

end Flo
