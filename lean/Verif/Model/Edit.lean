import Verif.Model.Parser
/-!
# Structural edits

Sources: `src/dom/deletion.c`, `src/dom/appendix.c`, `src/dom/prependix.c`, `src/dom/replacement.c`,
`src/dom/modification.c:93-103`, `src/dom/dom-util.c:40-50`.

A function that mutates the DOM and returns a value returns `Out (value × Dom)`.
-/
namespace Flo

/-- The row of the previous sibling is redirected to the next sibling, or zeroed,
`src/dom/deletion.c:22-29`. -/
def unlinkPrev (n : Nat) (d : Dom) : List Row :=
  match getPreviousNode n d with
  | none => d.nn
  | some v =>
    match getNextNode n d with
    | none => d.nn.set v (0, 0)
    | some i => d.nn.set v ((rowAt d.nn v).1, (rowAt d.nn i).2)

/-- Afterwards the row of the node itself is zeroed, `src/dom/deletion.c:49-52`. -/
def unlinkNext (n : Nat) (d : Dom) : List Row :=
  match getNextNode n d with
  | none => unlinkPrev n d
  | some j => (unlinkPrev n d).set j (0, 0)

/-- The parent's rows, `src/dom/deletion.c:31-47`: the parent-child row is zeroed, the first-child row is
moved on to the next sibling or zeroed. -/
def unlinkParent (n : Nat) (d : Dom) : Out (List Row × List Row) :=
  match getParentNode n d with
  | none => .ok (d.fc, d.pc)
  | some i =>
    let parentID := (rowAt d.pc i).1
    let pc1 := d.pc.set i (0, 0)
    match getFirstChildNode parentID d with
    | none => .ub .nullDeref
    | some k =>
      if (rowAt d.fc k).2 = n then
        match getNextNode n d with
        | none => .ok (d.fc.set k (0, 0), pc1)
        | some j => .ok (d.fc.set k ((rowAt d.fc k).1, (rowAt (unlinkPrev n d) j).2), pc1)
      else .ok (d.fc, pc1)

/-- The unlinking part of `flo_html_removeNode`, `src/dom/deletion.c:13-54` (everything after the call of
`flo_html_removeChildren`).  The four pointers are fetched in the order of the source and stay valid because
no table is resized in between. -/
def unlinkNode (n : Nat) (d : Dom) : Out Dom :=
  if n ≥ d.nodes.length then .ub .oobIndex
  else do
    let (fc, pc) ← unlinkParent n d
    .ok { d with
      fc := fc, pc := pc, nn := unlinkNext n d
      nodes := d.nodes.set n ⟨.removed, .tag 0⟩ }

/-- The loop of `flo_html_removeChildren`, `src/dom/deletion.c:60-66`, for a given way of removing one
child. -/
def removeChildrenLoop (rm : Nat → Dom → Out Dom) (n : Nat) : Nat → Dom → Out Dom
  | 0, _ => .hang
  | k + 1, d =>
    let child := getFirstChild n d
    if child > 0 then do
      let d ← rm child d
      removeChildrenLoop rm n k d
    else .ok d

/-- `flo_html_removeNode`, `src/dom/deletion.c:10-55`; the fuel bounds the recursion depth. -/
def removeNodeF : Nat → Nat → Dom → Out Dom
  | 0, _, _ => .hang
  | f + 1, n, d => do
    let d ← removeChildrenLoop (removeNodeF f) n (d.nodes.length + 1) d
    unlinkNode n d

/-- `flo_html_removeNode`, `src/dom/deletion.c:10-55`. -/
def removeNode (n : Nat) (d : Dom) : Out Dom := removeNodeF (d.nodes.length + 1) n d

/-- `flo_html_removeChildren`, `src/dom/deletion.c:60-66`. -/
def removeChildren (n : Nat) (d : Dom) : Out Dom :=
  removeChildrenLoop (removeNodeF (d.nodes.length + 1)) n (d.nodes.length + 1) d

/-- `flo_html_setTextContent`, `src/dom/modification.c:93-103`. -/
def setTextContent (n : Nat) (text : Str) (d : Dom) : Out Dom := do
  let d ← removeChildren n d
  let (id, d) ← parseTextElement text d
  .ok { d with fc := d.fc ++ [(n, id)], pc := d.pc ++ [(n, id)] }

/-- The loop of `flo_html_connectOtherNodesToParent`, `src/dom/dom-util.c:44-49`. -/
def connectLoop (parent : Nat) : Nat → Nat → Dom → Out Dom
  | 0, _, _ => .hang
  | f + 1, other, d =>
    if other > 0 then
      let d := { d with pc := d.pc ++ [(parent, other)] }
      connectLoop parent f (getNext other d) d
    else .ok d

/-- `flo_html_connectOtherNodesToParent`, `src/dom/dom-util.c:40-50`. -/
def connectOthers (parent lastAdded : Nat) (d : Dom) : Out Dom :=
  connectLoop parent (d.nn.length + 2) (getNext lastAdded d) d

/-! ## Appending -/

/-- `updateReferences` of `src/dom/appendix.c:77-101`. -/
def appendUpdateReferences (parent new : Nat) (d : Dom) : Out Dom :=
  match getFirstChildNode parent d with
  | none =>
    connectOthers parent new { d with fc := d.fc ++ [(parent, new)], pc := d.pc ++ [(parent, new)] }
  | some i => do
    let last ← getLastNext (rowAt d.fc i).2 d
    connectOthers parent new { d with nn := d.nn ++ [(last, new)], pc := d.pc ++ [(parent, new)] }

/-- `flo_html_appendDocumentNode`, `src/dom/appendix.c:103-114`. -/
def appendDocumentNode (parent : Nat) (doc : DocNode) (d : Dom) : Out (Nat × Dom) := do
  let (id, d) ← parseDocumentElement doc d
  if id = 0 then .ok (0, d)
  else do
    let d ← appendUpdateReferences parent id d
    .ok (id, d)

/-- `flo_html_appendTextNode`, `src/dom/appendix.c:116-135`. -/
def appendTextNode (parent : Nat) (text : Str) (d : Dom) : Out (Nat × Dom) := do
  let (id, d) ← parseTextElement text d
  if id = 0 then .ok (0, d)
  else
    let first := getFirstChild parent d
    if first > 0 then do
      let child ← getLastNext first d
      let (merged, d) ← tryMerge child id true d
      if merged then do
        let d ← removeNode id d
        .ok (child, d)
      else do
        let d ← appendUpdateReferences parent id d
        .ok (id, d)
    else do
      let d ← appendUpdateReferences parent id d
      .ok (id, d)

/-- `flo_html_appendHTMLFromString`, `src/dom/appendix.c:137-183`.  The 16-bit truncation of `nodes.len` is
the identity on reachable DOMs (C12). -/
def appendHTML (junk : Nat → Out Bool) (parent : Nat) (html : Str) (d : Dom) : Out (Nat × Dom) := do
  let firstNew := d.nodes.length
  let r ← parseExtra junk html d
  let d := r.dom
  if !r.ok then .ok (0, d)
  else
    let firstChild := getFirstChild parent d
    if firstChild > 0 then do
      let lastNew ← getLastNext firstNew d
      let node ← d.node firstNew
      if lastNew > firstNew then
        if node.type = .text then do
          let lastNext ← getLastNext firstChild d
          let (merged, d) ← tryMerge lastNext firstNew true d
          if merged then do
            let second := getNext firstNew d
            let d ← removeNode firstNew d
            let d ← appendUpdateReferences parent second d
            .ok (second, d)
          else do
            let d ← appendUpdateReferences parent firstNew d
            .ok (firstNew, d)
        else do
          let d ← appendUpdateReferences parent firstNew d
          .ok (firstNew, d)
      else
        if node.type = .text then do
          let lastNext ← getLastNext firstChild d
          let (merged, d) ← tryMerge lastNext firstNew true d
          if merged then do
            let d ← removeNode firstNew d
            .ok (lastNext, d)
          else do
            let d ← appendUpdateReferences parent firstNew d
            .ok (firstNew, d)
        else do
          let d ← appendUpdateReferences parent firstNew d
          .ok (firstNew, d)
    else do
      let d ← appendUpdateReferences parent firstNew d
      .ok (firstNew, d)

/-! ## Prepending -/

/-- `updateReferences` of `src/dom/prependix.c:78-105`. -/
def prependUpdateReferences (parent new : Nat) (d : Dom) : Out Dom :=
  match getFirstChildNode parent d with
  | none =>
    connectOthers parent new { d with fc := d.fc ++ [(parent, new)], pc := d.pc ++ [(parent, new)] }
  | some i => do
    let previousFirst := (rowAt d.fc i).2
    let d := { d with fc := d.fc.set i ((rowAt d.fc i).1, new) }
    let lastNew ← getLastNext new d
    connectOthers parent new
      { d with nn := d.nn ++ [(lastNew, previousFirst)], pc := d.pc ++ [(parent, new)] }

/-- `flo_html_prependDocumentNode`, `src/dom/prependix.c:107-118`. -/
def prependDocumentNode (parent : Nat) (doc : DocNode) (d : Dom) : Out (Nat × Dom) := do
  let (id, d) ← parseDocumentElement doc d
  if id = 0 then .ok (0, d)
  else do
    let d ← prependUpdateReferences parent id d
    .ok (id, d)

/-- `flo_html_prependTextNode`, `src/dom/prependix.c:120-139`.  After a merge it returns the identifier of
the node it has just removed (line 132). -/
def prependTextNode (parent : Nat) (text : Str) (d : Dom) : Out (Nat × Dom) := do
  let (id, d) ← parseTextElement text d
  if id = 0 then .ok (0, d)
  else
    let child := getFirstChild parent d
    if child > 0 then do
      let (merged, d) ← tryMerge child id false d
      if merged then do
        let d ← removeNode id d
        .ok (id, d)
      else do
        let d ← prependUpdateReferences parent id d
        .ok (id, d)
    else do
      let d ← prependUpdateReferences parent id d
      .ok (id, d)

/-- `flo_html_prependHTMLFromString`, `src/dom/prependix.c:141-178`. -/
def prependHTML (junk : Nat → Out Bool) (parent : Nat) (html : Str) (d : Dom) : Out (Nat × Dom) := do
  let firstNew := d.nodes.length
  let r ← parseExtra junk html d
  let d := r.dom
  if !r.ok then .ok (0, d)
  else
    let firstChild := getFirstChild parent d
    if firstChild > 0 then do
      let lastNew ← getLastNext firstNew d
      let node ← d.node lastNew
      if lastNew > firstNew then
        if node.type = .text then do
          let (merged, d) ← tryMerge firstChild lastNew false d
          if merged then do
            let d ← removeNode lastNew d
            let d ← prependUpdateReferences parent firstNew d
            .ok (firstNew, d)
          else do
            let d ← prependUpdateReferences parent firstNew d
            .ok (firstNew, d)
        else do
          let d ← prependUpdateReferences parent firstNew d
          .ok (firstNew, d)
      else do
        let node ← d.node firstNew
        if node.type = .text then do
          let (merged, d) ← tryMerge firstChild firstNew false d
          if merged then do
            let d ← removeNode firstNew d
            .ok (firstChild, d)
          else do
            let d ← prependUpdateReferences parent firstNew d
            .ok (firstNew, d)
        else do
          let d ← prependUpdateReferences parent firstNew d
          .ok (firstNew, d)
    else do
      let d ← prependUpdateReferences parent firstNew d
      .ok (firstNew, d)

/-! ## Replacing -/

/-- The loop of `updateReferences` of `src/dom/replacement.c:108-114`.  `parentChildNode` points to row `i`
of `parentChilds`; the pushes may move the array, but the C code keeps reading the old memory, whose
`parentID` is unchanged, so the parent read is the one of row `i`. -/
def replaceConnectLoop (i : Nat) : Nat → Nat → Dom → Out Dom
  | 0, _, _ => .hang
  | f + 1, other, d =>
    if other > 0 then
      let d := { d with pc := d.pc ++ [((rowAt d.pc i).1, other)] }
      replaceConnectLoop i f (getNext other d) d
    else .ok d

/-- The previous sibling's row, `src/dom/replacement.c:98-99`. -/
def replacePrev (old new : Nat) (d : Dom) : List Row :=
  match getPreviousNode old d with
  | some v => d.nn.set v ((rowAt d.nn v).1, new)
  | none => d.nn

/-- The parent's first-child row, `src/dom/replacement.c:84-90,100-104`: changed only when there is no
previous sibling. -/
def replaceFirst (old new : Nat) (d : Dom) : List Row :=
  match getPreviousNode old d with
  | some _ => d.fc
  | none =>
    match getParentNode old d with
    | none => d.fc
    | some i =>
      match getFirstChildNode (rowAt d.pc i).1 d with
      | some k => d.fc.set k ((rowAt d.fc k).1, new)
      | none => d.fc

/-- The parent rows, `src/dom/replacement.c:106-115`. -/
def replaceParent (old new : Nat) (d : Dom) : Out Dom :=
  match getParentNode old d with
  | none => .ok d
  | some i =>
    let d := { d with pc := d.pc.set i ((rowAt d.pc i).1, new) }
    replaceConnectLoop i (d.nn.length + 2) (getNext new d) d

/-- The row of the replaced node now belongs to the last new node, `src/dom/replacement.c:117-119`;
`j` is the row found before the other changes. -/
def replaceNext (j : Option Nat) (lastNew : Nat) (nn : List Row) : List Row :=
  match j with
  | none => nn
  | some j => nn.set j (lastNew, (rowAt nn j).2)

/-- `updateReferences` of `src/dom/replacement.c:78-122`.  All pointers are fetched before the first write;
the writes do not change what the lookups would find. -/
def replaceUpdateReferences (old new : Nat) (d : Dom) : Out Dom := do
  let node ← d.node old
  let lastNew ← getLastNext new d
  let next := getNextNode old d
  let d ← replaceParent old new { d with nn := replacePrev old new d, fc := replaceFirst old new d }
  .ok { d with nn := replaceNext next lastNew d.nn, nodes := d.nodes.set old { node with type := .removed } }

/-- `flo_html_replaceWithDocumentNode`, `src/dom/replacement.c:124-135`. -/
def replaceWithDocumentNode (old : Nat) (doc : DocNode) (d : Dom) : Out (Nat × Dom) := do
  let (id, d) ← parseDocumentElement doc d
  if id = 0 then .ok (0, d)
  else do
    let d ← replaceUpdateReferences old id d
    .ok (id, d)

/-- The first attempt of `tryMergeBothSides`, `src/dom/replacement.c:143-151`. -/
def tryMergePrev (old new : Nat) (d : Dom) : Out (Bool × Dom) :=
  match getPreviousNode old d with
  | some v => tryMerge (rowAt d.nn v).1 new true d
  | none => .ok (false, d)

/-- The second attempt of `tryMergeBothSides`, `src/dom/replacement.c:153-158`. -/
def tryMergeNext (old new : Nat) (d : Dom) : Out (Bool × Dom) :=
  match getNextNode old d with
  | some j => tryMerge (rowAt d.nn j).2 new false d
  | none => .ok (false, d)

/-- `tryMergeBothSides`, `src/dom/replacement.c:137-162`. -/
def tryMergeBothSides (old new : Nat) (d : Dom) : Out (Bool × Dom) := do
  let node ← d.node new
  if node.type = .text then do
    let (merged, d) ← tryMergePrev old new d
    if merged then .ok (true, d)
    else tryMergeNext old new d
  else .ok (false, d)

/-- `flo_html_replaceWithTextNode`, `src/dom/replacement.c:164-182`. -/
def replaceWithTextNode (old : Nat) (text : Str) (d : Dom) : Out (Nat × Dom) := do
  let (id, d) ← parseTextElement text d
  if id = 0 then .ok (0, d)
  else do
    let (merged, d) ← tryMergeBothSides old id d
    if merged then do
      let d ← removeNode id d
      let d ← removeNode old d
      .ok (id, d)
    else do
      let d ← replaceUpdateReferences old id d
      .ok (id, d)

/-- The first new node is merged into the previous sibling, `src/dom/replacement.c:200-213`; the result is
the new first node. -/
def replaceMergeFirst (old firstNew : Nat) (d : Dom) : Out (Nat × Dom) := do
  let node ← d.node firstNew
  if node.type = .text then do
    let (merged, d) ← tryMergePrev old firstNew d
    if merged then do
      let second := getNext firstNew d
      let d ← removeNode firstNew d
      .ok (second, d)
    else .ok (firstNew, d)
  else .ok (firstNew, d)

/-- The last new node is merged into the next sibling, `src/dom/replacement.c:215-225`. -/
def replaceMergeLast (old lastNew : Nat) (d : Dom) : Out Dom := do
  let last ← d.node lastNew
  if last.type = .text then do
    let (merged, d) ← tryMergeNext old lastNew d
    if merged then removeNode lastNew d else .ok d
  else .ok d

/-- The value returned after a single text has been merged, `src/dom/replacement.c:232`: `previousNode` is a
pointer into `nextNodes` fetched before the removals. -/
def replaceReturn (previous : Option Nat) (d : Dom) : Out (Nat × Dom) :=
  match previous with
  | some v => .ok ((rowAt d.nn v).1, d)
  | none => .ub .nullDeref

/-- `flo_html_replaceWithHTMLFromString`, `src/dom/replacement.c:184-239`. -/
def replaceWithHTML (junk : Nat → Out Bool) (old : Nat) (html : Str) (d : Dom) : Out (Nat × Dom) := do
  let firstNew := d.nodes.length
  let r ← parseExtra junk html d
  let d := r.dom
  if !r.ok then .ok (0, d)
  else do
    let lastNew ← getLastNext firstNew d
    let previous := getPreviousNode old d
    if lastNew > firstNew then do
      let (firstNew, d) ← replaceMergeFirst old firstNew d
      let d ← replaceMergeLast old lastNew d
      let d ← replaceUpdateReferences old firstNew d
      .ok (firstNew, d)
    else do
      let (merged, d) ← tryMergeBothSides old firstNew d
      if merged then do
        let d ← removeNode firstNew d
        let d ← removeNode old d
        replaceReturn previous d
      else do
        let d ← replaceUpdateReferences old firstNew d
        .ok (firstNew, d)

end Flo
