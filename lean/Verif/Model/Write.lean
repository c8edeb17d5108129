import Verif.Model.Compare
/-!
# Printing a DOM

Source: `src/dom/writing.c`.  The text handed to the write buffer is modelled as one string; the buffer
itself is `Log.lean`.
-/
namespace Flo

/-- The loop over `boolProps` in `printNode`, `src/dom/writing.c:36-43`. -/
def printBools (n : Nat) (d : Dom) : List Row → Out Str
  | [] => .ok []
  | r :: rs =>
    if r.1 = n then do
      let b ← regAt d.boolReg r.2
      let rest ← printBools n d rs
      .ok (b!" " ++ b ++ rest)
    else printBools n d rs

/-- The loop over `props` in `printNode`, `src/dom/writing.c:45-55`. -/
def printProps (n : Nat) (d : Dom) : List PropRow → Out Str
  | [] => .ok []
  | r :: rs =>
    if r.node = n then do
      let k ← regAt d.keyReg r.key
      let v ← regAt d.valReg r.value
      let rest ← printProps n d rs
      .ok (b!" " ++ k ++ b!"=\"" ++ v ++ b!"\"" ++ rest)
    else printProps n d rs

/-- The child loops of `printNode`, `src/dom/writing.c:20-24,70-74`. -/
def printChildren (pr : Nat → Out Str) (d : Dom) : Nat → Nat → Out Str
  | 0, _ => .hang
  | f + 1, c =>
    if c ≠ 0 then do
      let a ← pr c
      let b ← printChildren pr d f (getNext c d)
      .ok (a ++ b)
    else .ok []

/-- `printNode`, `src/dom/writing.c:11-79`; the fuel bounds the recursion depth.  A removed node is treated
like a document node, as in the source. -/
def printNodeF (d : Dom) : Nat → Nat → Out Str
  | 0, _ => .hang
  | f + 1, n => do
    let node ← d.node n
    match node.type with
    | .error => .ok []
    | .root => printChildren (printNodeF d f) d (d.nn.length + 2) (getFirstChild n d)
    | .text => node.getText
    | _ => do
      let t ← node.docTag
      let reg ← regAt d.tagReg t
      let bs ← printBools n d d.boolProps
      let ps ← printProps n d d.props
      if !reg.2 then
        .ok (b!"<" ++ reg.1 ++ bs ++ ps ++ (if strEq reg.1 b!"!DOCTYPE" then b!">" else b!"/>"))
      else do
        let cs ← printChildren (printNodeF d f) d (d.nn.length + 2) (getFirstChild n d)
        .ok (b!"<" ++ reg.1 ++ bs ++ ps ++ b!">" ++ cs ++ b!"</" ++ reg.1 ++ b!">")

/-- What `flo_html_writeHTMLToFile` (`src/dom/writing.c:93-123`) and `flo_html_printHTML` (lines 81-91) write
for the document: the loop over the root and its (non-existing) next siblings. -/
def printHTML (d : Dom) : Out Str :=
  printChildren (printNodeF d (d.nodes.length + 1)) d (d.nn.length + 2) rootID

end Flo
