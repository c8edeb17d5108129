import Verif.Spec.Log
import Verif.Spec.Compare
import Verif.Model.Files
/-!
# The text of the reports (C78, C79)
-/
namespace Flo.Spec

/-- Decimal digits of a number. -/
def dec (n : Nat) : Str := if n < 10 then [UInt8.ofNat (48 + n)] else dec (n / 10) ++ [UInt8.ofNat (48 + n % 10)]

/-- A text in a column of `k` characters (longer texts stick out). -/
def cell (k : Nat) (s : Str) : Str := s ++ pad s k

/-- The names in a registry with their identifiers; entry 0 is a placeholder. -/
def numbered (reg : List Str) : List (Str × Nat) := reg.zipIdx.drop 1

/-- One line for each name in a table. -/
def entriesText (es : List (Str × Nat)) : Str :=
  es.flatMap (fun e => b!"string = " ++ cell 30 e.1 ++ b!" with id = " ++ dec e.2 ++ b!"\n") ++ b!"\n"

/-- How node types are called. -/
def typeName : NodeType → Str
  | .root => b!"Root"
  | .document => b!"Document"
  | .text => b!"Text"
  | .removed => b!"Removed"
  | .error => b!"Error"

/-- The line for a node; for an element it ends with the identifier of the tag. -/
def nodeLine (i : Nat) (nd : Node) : Str :=
  b!"Node ID: " ++ cell 5 (dec i) ++ b!" Node type: " ++ cell 10 (typeName nd.type) ++
  (match nd with
   | ⟨.document, .tag t⟩ => b!" with tag ID: " ++ dec t
   | _ => []) ++ b!"\n"

/-- The line for a tag. -/
def tagLine (i : Nat) (r : Str × Bool) : Str :=
  b!"tag ID: " ++ cell 5 (dec i) ++ b!" tag: " ++ cell 20 r.1 ++ b!" isPaired: " ++
    (if r.2 then b!"true" else b!"false") ++ b!"\n"

/-- A registry of names. -/
def registryText (name : Str) (reg : List Str) : Str :=
  b!"registration nodes inside DOM for registry: " ++ name ++ b!"\nTotal number of nodes: " ++ dec reg.length ++ b!"\n" ++
  reg.zipIdx.flatMap (fun e => b!"ID: " ++ cell 3 (dec e.2) ++ b!" value: " ++ e.1 ++ b!"\n") ++ b!"\n"

/-- A table of pairs of identifiers. -/
def rowsText (first second : Str) (rows : List Row) : Str :=
  rows.flatMap (fun r => first ++ cell 5 (dec r.1) ++ second ++ cell 5 (dec r.2) ++ b!"\n") ++ b!"\n"

/-- The names of a DOM are shorter than 4 GiB and its tables have fewer than 2^63 rows. -/
structure Printable (d : Dom) : Prop where
  keys : ∀ s ∈ d.keyReg, s.length < 2 ^ 32
  vals : ∀ s ∈ d.valReg, s.length < 2 ^ 32
  bools : ∀ s ∈ d.boolReg, s.length < 2 ^ 32
  tags : ∀ r ∈ d.tagReg, r.1.length < 2 ^ 32
  boolRows : d.boolProps.length < 2 ^ 63
  propRows : d.props.length < 2 ^ 63
  links : d.pc.length < 2 ^ 63

/-- The whole report. -/
def statusText (d : Dom) : Str :=
  b!"printing DOM status...\n\nprinting property status...\nprinting keys...\n" ++ entriesText (numbered d.keyReg) ++
  b!"printing values...\n" ++ entriesText (numbered d.valReg) ++
  b!"printing bool property status...\n" ++ entriesText (numbered d.boolReg) ++
  b!"printing tags status...\n" ++ entriesText (numbered (d.tagReg.map (·.1))) ++
  (b!"Printing DOM contents...\nNodes inside DOM...\nTotal number of nodes: " ++ dec d.nodes.length ++ b!"\n" ++
   d.nodes.zipIdx.flatMap (fun e => nodeLine e.2 e.1) ++ b!"\n" ++
   b!"tag registration nodes inside DOM...\ntotal number of tag registration nodes: " ++ dec d.tagReg.length ++ b!"\n" ++
   d.tagReg.zipIdx.flatMap (fun e => tagLine e.2 e.1) ++ b!"\n" ++
   registryText b!"bool props" d.boolReg ++ registryText b!"key props" d.keyReg ++ registryText b!"value props" d.valReg) ++
  (b!"boolean property nodes inside DOM...\ntotal number of boolean properties: " ++ dec d.boolProps.length ++ b!"\n" ++
   d.boolProps.flatMap (fun r => b!"node ID: " ++ cell 3 (dec r.1) ++ b!" prop ID: " ++ dec r.2 ++ b!"\n") ++ b!"\n" ++
   b!"key-value property nodes inside DOM...\ntotal number of key-value properties: " ++ dec d.props.length ++ b!"\n" ++
   d.props.flatMap (fun r => b!"node ID: " ++ cell 3 (dec r.node) ++ b!" key ID: " ++ cell 3 (dec r.key) ++
     b!" value ID: " ++ dec r.value ++ b!"\n") ++ b!"\n") ++
  (b!"parent-first-child inside DOM...\ntotal number of parent-first-child: " ++ dec d.fc.length ++ b!"\n" ++
   rowsText b!"parent node ID: " b!" first child node ID: " d.fc ++
   b!"parent-child inside DOM...\ntotal number of parent-child: " ++ dec d.pc.length ++ b!"\n" ++
   rowsText b!"parent: " b!" child: " d.pc ++
   b!"next nodes inside DOM...\ntotal number of next nodes: " ++ dec d.nn.length ++ b!"\n" ++
   rowsText b!"current node: " b!" next node: " d.nn ++ b!"\n")

end Flo.Spec
