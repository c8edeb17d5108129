import Verif.Model.AutoMap
/-!
# The DOM tables

Sources: `include/flo/html-parser/dom/dom.h`, `include/flo/html-parser/node/*.h`,
`src/dom/dom-util.c`, `src/dom/dom.c`.
-/
namespace Flo

/-- `flo_html_NodeType`, `include/flo/html-parser/node/node.h:14-21`. -/
inductive NodeType where
  | root | document | text | removed | error
  deriving DecidableEq, Repr

/-- The union of `flo_html_Node` (`include/flo/html-parser/node/node.h:38-41`), as the member written last. -/
inductive Payload where
  | tag (id : Nat)
  | text (s : Str)
  deriving DecidableEq, Repr

/-- `flo_html_Node`, `include/flo/html-parser/node/node.h:35-42`.  The field `nodeID` is dropped: it is
written once, to the index of the node (`src/dom/dom-util.c:21`, `src/dom/dom.c:26-33`), and never changed,
so every `node.nodeID` is the index itself. -/
structure Node where
  type : NodeType
  payload : Payload
  deriving DecidableEq, Repr

/-- A row of a table of two identifiers: `flo_html_ParentChild` as (parentID, childID)
(`include/flo/html-parser/node/parent-child.h:10-13`), `flo_html_NextNode` as (currentNodeID, nextNodeID)
(`include/flo/html-parser/node/next-node.h:10-13`), `flo_html_BooleanProperty` as (nodeID, propID) 
(`include/flo/html-parser/node/boolean-property.h:10-13`). -/
abbrev Row := Nat × Nat

/-- `flo_html_Property`, `include/flo/html-parser/node/property.h:10-14`. -/
structure PropRow where
  node : Nat
  key : Nat
  value : Nat
  deriving DecidableEq, Repr

/-- `flo_html_Dom`, `include/flo/html-parser/dom/dom.h:35-57`.  The dynamic arrays are lists
(their memory representation is modelled in `Arena.lean`); identifiers are natural numbers. -/
structure Dom where
  nodes : List Node
  /-- `parentFirstChilds` -/
  fc : List Row
  /-- `parentChilds` -/
  pc : List Row
  /-- `nextNodes` -/
  nn : List Row
  boolProps : List Row
  props : List PropRow
  /-- `tagRegistry`: (tag, isPaired) -/
  tagReg : List (Str × Bool)
  boolReg : List Str
  keyReg : List Str
  valReg : List Str
  tagMap : AutoMap
  boolMap : AutoMap
  keyMap : AutoMap
  valMap : AutoMap
  deriving DecidableEq, Repr

/-- `FLO_HTML_ERROR_NODE_ID`, `FLO_HTML_ROOT_NODE_ID`: `include/flo/html-parser/dom/dom.h:21-22`. -/
abbrev errorID : Nat := 0
abbrev rootID : Nat := 1

/-- The DOM `flo_html_createDom` sets up before parsing, `src/dom/dom.c:24-40`. -/
def Dom.init : Dom where
  nodes := [⟨.error, .tag 0⟩, ⟨.root, .tag 0⟩]
  fc := []
  pc := []
  nn := []
  boolProps := []
  props := []
  tagReg := [([], false)]
  boolReg := [[]]
  keyReg := [[]]
  valReg := [[]]
  tagMap := .empty
  boolMap := .empty
  keyMap := .empty
  valMap := .empty

/-- `flo_html_createNode`, `src/dom/dom-util.c:13-26`: jumps when `nodes.len > 65534`.  The C code leaves
the union uninitialised; the callers write it before anything reads it, so the model picks a placeholder. -/
def createNode (type : NodeType) (d : Dom) : Out (Nat × Dom) :=
  if d.nodes.length > 65534 then .longjmp
  else
    let payload := if type = .text then Payload.text [] else Payload.tag 0
    .ok (d.nodes.length, { d with nodes := d.nodes ++ [⟨type, payload⟩] })

/-- Access `dom->nodes.buf[i]`, e.g. `src/dom/writing.c:13`. -/
def Dom.node (d : Dom) (i : Nat) : Out Node :=
  match d.nodes[i]? with
  | some n => .ok n
  | none => .ub .oobIndex

/-- Reading `node.text`, e.g. `src/dom/writing.c:29`. -/
def Node.getText (n : Node) : Out Str :=
  match n.payload with
  | .text s => .ok s
  | .tag _ => .ub .badUnion

/-- Reading `node.tagID`, `src/dom/query/query-util.c:10-62`.  When the union holds a text, the two bytes read are the low half of the first
four bytes of the text pointer: an arbitrary number, supplied by the oracle `pun` (indexed by node). -/
def Node.getTag (pun : Nat → Nat) (i : Nat) (n : Node) : Nat :=
  match n.payload with
  | .tag t => t
  | .text _ => pun i

/-- `dom->nodes.buf[i] = ...` for an index in range, e.g. `src/dom/deletion.c:53-54`. -/
def Dom.setNode (d : Dom) (i : Nat) (n : Node) : Dom := { d with nodes := d.nodes.set i n }

/-- The row a (non-NULL) table pointer designates, e.g. `src/dom/deletion.c:27`. -/
def rowAt (l : List Row) (i : Nat) : Row := l.getD i (0, 0)

/-! ## Navigation, `src/dom/traversal.c` -/

/-- `flo_html_getFirstChildNode`, `src/dom/traversal.c:5-13`; the pointer is an index into `fc`.
The 16-bit loop counter is treated as unbounded (C56 proves this harmless). -/
def getFirstChildNode (n : Nat) (d : Dom) : Option Nat := d.fc.findIdx? (·.1 == n)

/-- `flo_html_getFirstChild`, `src/dom/traversal.c:15-24`. -/
def getFirstChild (n : Nat) (d : Dom) : Nat :=
  match getFirstChildNode n d with
  | none => 0
  | some i => (rowAt d.fc i).2

/-- `flo_html_getNextNode`, `src/dom/traversal.c:27-35`. -/
def getNextNode (n : Nat) (d : Dom) : Option Nat := d.nn.findIdx? (·.1 == n)

/-- `flo_html_getNext`, `src/dom/traversal.c:37-45`. -/
def getNext (n : Nat) (d : Dom) : Nat :=
  match getNextNode n d with
  | none => 0
  | some i => (rowAt d.nn i).2

/-- `flo_html_getParentNode`, `src/dom/traversal.c:48-57`. -/
def getParentNode (n : Nat) (d : Dom) : Option Nat := d.pc.findIdx? (·.2 == n)

/-- `flo_html_getParent`, `src/dom/traversal.c:59-67`. -/
def getParent (n : Nat) (d : Dom) : Nat :=
  match getParentNode n d with
  | none => 0
  | some i => (rowAt d.pc i).1

/-- `flo_html_getPreviousNode`, `src/dom/traversal.c:69-77`. -/
def getPreviousNode (n : Nat) (d : Dom) : Option Nat := d.nn.findIdx? (·.2 == n)

/-- `flo_html_getPrevious`, `src/dom/traversal.c:79-87`. -/
def getPrevious (n : Nat) (d : Dom) : Nat :=
  match getPreviousNode n d with
  | none => 0
  | some i => (rowAt d.nn i).1

/-- The climbing loop of `flo_html_traverseNode`, `src/dom/traversal.c:103-111`. -/
def climbNode (d : Dom) (start : Nat) : Nat → Nat → Out Nat
  | 0, _ => .hang
  | f + 1, p =>
    if p > 0 ∧ p ≠ start then
      let next := getNext p d
      if next ≠ 0 then .ok next else climbNode d start f (getParent p d)
    else .ok 0

/-- `flo_html_traverseNode`, `src/dom/traversal.c:89-115`. -/
def traverseNode (cur start : Nat) (d : Dom) : Out Nat :=
  let first := getFirstChild cur d
  if first ≠ 0 then .ok first
  else
    let next := getNext cur d
    if next > 0 ∧ next ≠ start then .ok next
    else if cur ≠ start then climbNode d start (d.nodes.length + 1) (getParent cur d)
    else .ok 0

/-- The climbing loop of `flo_html_traverseDom`, `src/dom/traversal.c:129-136`. -/
def climbDom (d : Dom) : Nat → Nat → Out Nat
  | 0, _ => .hang
  | f + 1, p =>
    if p ≠ 0 then
      let next := getNext p d
      if next ≠ 0 then .ok next else climbDom d f (getParent p d)
    else .ok 0

/-- `flo_html_traverseDom`, `src/dom/traversal.c:117-139`. -/
def traverseDom (cur : Nat) (d : Dom) : Out Nat :=
  let first := getFirstChild cur d
  if first ≠ 0 then .ok first
  else
    let next := getNext cur d
    if next ≠ 0 then .ok next
    else climbDom d (d.nodes.length + 1) (getParent cur d)

/-- The loop of `flo_html_getLastNext`, `src/dom/traversal.c:144-148`. -/
def lastNextLoop (d : Dom) : Nat → Nat → Out Nat
  | 0, _ => .hang
  | f + 1, last =>
    match getNextNode last d with
    | none => .ok last
    | some i => lastNextLoop d f (rowAt d.nn i).2

/-- `flo_html_getLastNext`, `src/dom/traversal.c:141-151`. -/
def getLastNext (start : Nat) (d : Dom) : Out Nat := lastNextLoop d (d.nn.length + 1) start

/-- The loop of `flo_html_getLastNextNode`, `src/dom/traversal.c:161-166`. -/
def lastNextNodeLoop (d : Dom) : Nat → Nat → Out Nat
  | 0, _ => .hang
  | f + 1, i =>
    match getNextNode (rowAt d.nn i).2 d with
    | none => .ok i
    | some j => lastNextNodeLoop d f j

/-- `flo_html_getLastNextNode`, `src/dom/traversal.c:153-169`; the result is an index into `nn`. -/
def getLastNextNode (start : Nat) (d : Dom) : Out (Option Nat) :=
  match getNextNode start d with
  | none => .ok none
  | some i => do
    let j ← lastNextNodeLoop d (d.nn.length + 1) i
    .ok (some j)

end Flo
