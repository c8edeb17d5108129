import Verif.Model.Dom
/-!
# Names, attributes and text of nodes

Sources: `src/dom/modification.c`, `src/dom/reading/reading.c`, `src/dom/reading/reading-util.c`,
the attribute part of `src/dom/deletion.c`, `src/dom/dom-util.c:28-38`.
-/
namespace Flo

/-- `getCreatedPropIDFromString` with `PROPERTY_TYPE_BOOL`, `src/dom/modification.c:19-43`. -/
def internBool (s : Str) (d : Dom) : Out (Nat × Dom) := do
  let r ← d.boolMap.insert s
  .ok (r.entryIndex,
    { d with boolMap := r.map, boolReg := if r.wasInserted then d.boolReg ++ [s] else d.boolReg })

/-- `getCreatedPropIDFromString` with `PROPERTY_TYPE_KEY`, `src/dom/modification.c:19-43`. -/
def internKey (s : Str) (d : Dom) : Out (Nat × Dom) := do
  let r ← d.keyMap.insert s
  .ok (r.entryIndex,
    { d with keyMap := r.map, keyReg := if r.wasInserted then d.keyReg ++ [s] else d.keyReg })

/-- `getCreatedPropIDFromString` with `PROPERTY_TYPE_VALUE`, `src/dom/modification.c:19-43`. -/
def internVal (s : Str) (d : Dom) : Out (Nat × Dom) := do
  let r ← d.valMap.insert s
  .ok (r.entryIndex,
    { d with valMap := r.map, valReg := if r.wasInserted then d.valReg ++ [s] else d.valReg })

/-- `flo_html_addPropertyToNode`, `src/dom/modification.c:45-56`. -/
def addProperty (n : Nat) (key value : Str) (d : Dom) : Out Dom := do
  let (k, d) ← internKey key d
  let (v, d) ← internVal value d
  .ok { d with props := d.props ++ [⟨n, k, v⟩] }

/-- `flo_html_addBooleanPropertyToNode`, `src/dom/modification.c:58-66`. -/
def addBoolProperty (n : Nat) (name : Str) (d : Dom) : Out Dom := do
  let (b, d) ← internBool name d
  .ok { d with boolProps := d.boolProps ++ [(n, b)] }

/-- `flo_html_getProperty`, `src/dom/reading/reading-util.c:4-16`; an index into `props`. -/
def getProperty (n key : Nat) (d : Dom) : Option Nat :=
  d.props.findIdx? (fun r => r.node == n && r.key == key)

/-- `flo_html_getBooleanProperty`, `src/dom/reading/reading-util.c:18-30`; an index into `boolProps`. -/
def getBooleanProperty (n b : Nat) (d : Dom) : Option Nat :=
  d.boolProps.findIdx? (fun r => r.1 == n && r.2 == b)

/-- `flo_html_setPropertyValue`, `src/dom/modification.c:68-91`. -/
def setPropertyValue (n : Nat) (key newValue : Str) (d : Dom) : Out (Bool × Dom) :=
  let k := d.keyMap.contains key
  if k = 0 then .ok (false, d)
  else
    match getProperty n k d with
    | none => .ok (false, d)
    | some i => do
      let (v, d) ← internVal newValue d
      .ok (true, { d with props := d.props.modify i (fun r => { r with value := v }) })

/-- `flo_html_removeBooleanProperty`, `src/dom/deletion.c:68-81`. -/
def removeBoolProperty (n : Nat) (name : Str) (d : Dom) : Dom :=
  let b := d.boolMap.contains name
  if b > 0 then
    match getBooleanProperty n b d with
    | some i => { d with boolProps := d.boolProps.set i (0, 0) }
    | none => d
  else d

/-- `flo_html_removeProperty`, `src/dom/deletion.c:83-96`. -/
def removeProperty (n : Nat) (key : Str) (d : Dom) : Dom :=
  let k := d.keyMap.contains key
  if k > 0 then
    match getProperty n k d with
    | some i => { d with props := d.props.set i ⟨0, 0, 0⟩ }
    | none => d
  else d

/-- `flo_html_hasBoolProp`, `src/dom/reading/reading.c:11-28`. -/
def hasBoolProp (n : Nat) (name : Str) (d : Dom) : Bool :=
  let b := d.boolMap.contains name
  if b = 0 then false else d.boolProps.any (fun r => r.1 == n && r.2 == b)

/-- `flo_html_hasPropKey`, `src/dom/reading/reading.c:30-46`. -/
def hasPropKey (n : Nat) (key : Str) (d : Dom) : Bool :=
  let k := d.keyMap.contains key
  if k = 0 then false else d.props.any (fun r => r.node == n && r.key == k)

/-- `flo_html_hasPropValue`, `src/dom/reading/reading.c:48-64`. -/
def hasPropValue (n : Nat) (value : Str) (d : Dom) : Bool :=
  let v := d.valMap.contains value
  if v = 0 then false else d.props.any (fun r => r.node == n && r.value == v)

/-- `flo_html_hasProperty`, `src/dom/reading/reading.c:66-90`.  The second test repeats `propKeyID == 0`
(sic, line 79), so an unknown value is looked for with identifier 0. -/
def hasProperty (n : Nat) (key value : Str) (d : Dom) : Bool :=
  let k := d.keyMap.contains key
  if k = 0 then false
  else
    let v := d.valMap.contains value
    if k = 0 then false
    else d.props.any (fun r => r.node == n && r.key == k && r.value == v)

/-- `flo_html_getValue`, `src/dom/reading/reading.c:109-125`. -/
def getValue (n : Nat) (key : Str) (d : Dom) : Out Str :=
  let k := d.keyMap.contains key
  if k = 0 then .ok []
  else
    match d.props.find? (fun r => r.node == n && r.key == k) with
    | none => .ok []
    | some r =>
      match d.valReg[r.value]? with
      | some s => .ok s
      | none => .ub .oobIndex

/-- The loop of `flo_html_getTextContent`, `src/dom/reading/reading.c:96-104`. -/
def textContentLoop (d : Dom) (start : Nat) : Nat → Nat → List Str → Out (List Str)
  | 0, _, _ => .hang
  | f + 1, cur, acc => do
    let cur ← traverseNode cur start d
    if cur = 0 then .ok acc
    else do
      let node ← d.node cur
      if node.type = .text then do
        let t ← node.getText
        textContentLoop d start f cur (acc ++ [t])
      else textContentLoop d start f cur acc

/-- `flo_html_getTextContent`, `src/dom/reading/reading.c:92-107`. -/
def getTextContent (n : Nat) (d : Dom) : Out (List Str) :=
  textContentLoop d n (d.nodes.length + 1) n []

/-- `flo_html_addTextToTextNode`, `src/dom/modification.c:105-125`: the two texts with one space between. -/
def addTextToTextNode (n : Nat) (text : Str) (isAppend : Bool) (d : Dom) : Out Dom := do
  let node ← d.node n
  let prev ← node.getText
  let merged := if isAppend then prev ++ [cSp] ++ text else text ++ [cSp] ++ prev
  .ok (d.setNode n { node with payload := .text merged })

/-- `flo_html_setTagOnDocumentNode`, `src/dom/modification.c:127-138`.  `isPaired` is stored only when the
tag is seen for the first time. -/
def setTag (tag : Str) (n : Nat) (isPaired : Bool) (d : Dom) : Out Dom := do
  let r ← d.tagMap.insert tag
  let d := { d with
    tagMap := r.map
    tagReg := if r.wasInserted then d.tagReg ++ [(tag, isPaired)] else d.tagReg }
  let node ← d.node n
  .ok (d.setNode n { node with payload := .tag r.entryIndex })

/-- `flo_html_tryMerge`, `src/dom/dom-util.c:28-38`: only the node merged into is checked to be a text. -/
def tryMerge (possible replacing : Nat) (isAppend : Bool) (d : Dom) : Out (Bool × Dom) := do
  let node ← d.node possible
  if node.type = .text then do
    let r ← d.node replacing
    let t ← r.getText
    let d ← addTextToTextNode possible t isAppend d
    .ok (true, d)
  else .ok (false, d)

end Flo
