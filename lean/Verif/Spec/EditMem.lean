import Verif.Model.EditMem
import Verif.Spec.DomMem
import Verif.Spec.History
/-!
# Editing a DOM in memory (C88, C89)

The mutating functions with their strings in memory, the strings a caller may pass, and the histories of a DOM that lives in an
arena: it is created there, the caller takes memory from the same arena for itself, and it is edited.
-/
namespace Flo.Spec

/-- A call of a mutating function; strings are given by address and length. -/
inductive MOp
  | add (n : Nat) (key value : MStr)
  | addBool (n : Nat) (name : MStr)
  | set (n : Nat) (key value : MStr)
  | remove (n : Nat) (key : MStr)
  | removeBool (n : Nat) (name : MStr)
  | addText (n : Nat) (text : MStr) (isAppend : Bool)
  | setTag (tag : MStr) (n : Nat) (isPaired : Bool)
  | setText (n : Nat) (text : MStr)
  | removeNode (n : Nat)
  | removeChildren (n : Nat)
  | appendDoc (p : Nat) (doc : MDocNode)
  | appendText (p : Nat) (text : MStr)
  | appendHTML (p : Nat) (html : MStr)
  | prependDoc (p : Nat) (doc : MDocNode)
  | prependText (p : Nat) (text : MStr)
  | prependHTML (p : Nat) (html : MStr)
  | replaceDoc (n : Nat) (doc : MDocNode)
  | replaceText (n : Nat) (text : MStr)
  | replaceHTML (n : Nat) (html : MStr)

/-- The string a caller passes. -/
def str (mem : Int → UInt8) (r : MStr) : Str := bytesFrom mem r.ptr r.len

/-- The element a caller passes. -/
def docNode (mem : Int → UInt8) (r : MDocNode) : DocNode :=
  ⟨str mem r.tag, r.isPaired, r.boolProps.map (str mem), r.props.map fun p => (str mem p.1, str mem p.2)⟩

/-- The call with the strings read from memory. -/
def MOp.read (mem : Int → UInt8) : MOp → Op
  | .add n k v => .attr (.add n (str mem k) (str mem v))
  | .addBool n b => .attr (.addBool n (str mem b))
  | .set n k v => .attr (.set n (str mem k) (str mem v))
  | .remove n k => .attr (.remove n (str mem k))
  | .removeBool n b => .attr (.removeBool n (str mem b))
  | .addText n t i => .addText n (str mem t) i
  | .setTag t n p => .setTag (str mem t) n p
  | .setText n t => .setText n (str mem t)
  | .removeNode n => .removeNode n
  | .removeChildren n => .removeChildren n
  | .appendDoc p d => .appendDoc p (docNode mem d)
  | .appendText p t => .appendText p (str mem t)
  | .appendHTML p h => .appendHTML p (str mem h)
  | .prependDoc p d => .prependDoc p (docNode mem d)
  | .prependText p t => .prependText p (str mem t)
  | .prependHTML p h => .prependHTML p (str mem h)
  | .replaceDoc n d => .replaceDoc n (docNode mem d)
  | .replaceText n t => .replaceText n (str mem t)
  | .replaceHTML n h => .replaceHTML n (str mem h)

/-- The strings of an element. -/
def docStrings (d : MDocNode) : List MStr := d.tag :: (d.boolProps ++ (d.props.map Prod.fst ++ d.props.map Prod.snd))

/-- The strings of a call. -/
def MOp.strings : MOp → List MStr
  | .add _ k v | .set _ k v => [k, v]
  | .addBool _ b | .removeBool _ b => [b]
  | .remove _ k => [k]
  | .addText _ t _ | .setTag t _ _ | .setText _ t | .appendText _ t | .prependText _ t | .replaceText _ t => [t]
  | .removeNode _ | .removeChildren _ => []
  | .appendDoc _ d | .prependDoc _ d | .replaceDoc _ d => docStrings d
  | .appendHTML _ h | .prependHTML _ h | .replaceHTML _ h => [h]

/-- The node a call is about. -/
def MOp.node : MOp → Nat
  | .add n _ _ | .set n _ _ | .addBool n _ | .removeBool n _ | .remove n _ | .addText n _ _ | .setTag _ n _ | .setText n _
  | .removeNode n | .removeChildren n | .appendDoc n _ | .appendText n _ | .appendHTML n _ | .prependDoc n _ | .prependText n _
  | .prependHTML n _ | .replaceDoc n _ | .replaceText n _ | .replaceHTML n _ => n

/-- A caller can make the call: the identifier has 16 bits, and the strings lie in memory `U` of the caller. -/
structure MOp.Given (U : Int → Prop) (op : MOp) : Prop where
  node : op.node < 65536
  pos : ∀ s ∈ op.strings, 0 ≤ s.ptr
  top : ∀ s ∈ op.strings, s.ptr + s.len ≤ 2 ^ 62
  mine : ∀ s ∈ op.strings, ∀ y, s.ptr ≤ y → y < s.ptr + s.len → U y

/-- The bytes of the strings of a call, one more for each string. -/
def MOp.size (op : MOp) : Int := ((op.strings.map fun s => s.len + 1).sum : Nat)

/-- For functions that return nothing. -/
def void (x : Out Dom) : Out (Nat × Dom) := do
  let d ← x
  .ok (0, d)

/-- Calling a mutating function on the abstract DOM; the number is the returned value, 0 or 1 for a truth value. -/
def callOp (junk : Nat → Out Bool) (op : Op) (d : Dom) : Out (Nat × Dom) :=
  match op with
  | .attr (.set n k v) => do
    let (b, d) ← setPropertyValue n k v d
    .ok (b.toNat, d)
  | .attr op => void (runAttr op d)
  | .addText n t a => void (addTextToTextNode n t a d)
  | .setTag t n p => void (Flo.setTag t n p d)
  | .setText n t => void (setTextContent n t d)
  | .removeNode n => void (Flo.removeNode n d)
  | .removeChildren n => void (Flo.removeChildren n d)
  | .appendDoc p doc => appendDocumentNode p doc d
  | .appendText p t => appendTextNode p t d
  | .appendHTML p h => Flo.appendHTML junk p h d
  | .prependDoc p doc => prependDocumentNode p doc d
  | .prependText p t => prependTextNode p t d
  | .prependHTML p h => Flo.prependHTML junk p h d
  | .replaceDoc n doc => replaceWithDocumentNode n doc d
  | .replaceText n t => replaceWithTextNode n t d
  | .replaceHTML n h => replaceWithHTML junk n h d

/-- For functions that return nothing and change the structure. -/
def voidP (x : Out (MDom × Arena)) : Out (Nat × MDom × Arena) := do
  let (M, a) ← x
  .ok (0, M, a)

/-- For functions that return nothing and leave the structure as it is. -/
def voidA (M : MDom) (x : Out Arena) : Out (Nat × MDom × Arena) := do
  let a ← x
  .ok (0, M, a)

/-- Calling a mutating function on the DOM in memory. -/
def memCall (junk : Nat → Out Bool) (op : MOp) (M : MDom) (a : Arena) : Out (Nat × MDom × Arena) :=
  match op with
  | .add n k v => voidP (memAddProperty n k v M a)
  | .addBool n b => voidP (memAddBoolProperty n b M a)
  | .set n k v => do
    let (b, M, a) ← memSetPropertyValue n k v M a
    .ok (b.toNat, M, a)
  | .remove n k => voidA M (memRemoveProp n k M a)
  | .removeBool n b => voidA M (memRemoveBool n b M a)
  | .addText n t i => voidA M (memAddText n t i M a)
  | .setTag t n p => voidP (memSetTag t n p M a)
  | .setText n t => voidP (memSetTextContent n t M a)
  | .removeNode n => voidA M (memRemoveNode n M a)
  | .removeChildren n => voidA M (memRemoveChildren n M a)
  | .appendDoc p d => memAppendDoc p d M a
  | .appendText p t => memAppendText p t M a
  | .appendHTML p h => memAppendHTML junk p h M a
  | .prependDoc p d => memPrependDoc p d M a
  | .prependText p t => memPrependText p t M a
  | .prependHTML p h => memPrependHTML junk p h M a
  | .replaceDoc n d => memReplaceDoc n d M a
  | .replaceText n t => memReplaceText n t M a
  | .replaceHTML n h => memReplaceHTML junk n h M a

/-- Histories of a DOM in memory.  `U` is memory of the caller: all that the arena did not own when the DOM was created, and what the
caller has taken from the arena since; `M` is the `flo_html_Dom` structure, `a` the arena with the memory, `d` the DOM meant. -/
inductive MemHistory : (Int → Prop) → MDom → Arena → Dom → Prop
  /-- `flo_html_createDom`. -/
  | created {a a' : Arena} {src : MStr} {s : Str} {M : MDom} {d : Dom} : ArenaOK a → 0 < a.beg → SourceAt a src s →
      createDom s = .ok (some d) → memCreateDom src a = .ok (some M, a') →
      MemHistory (fun y => y < a.beg ∨ a.stop ≤ y) M a' d
  /-- The caller takes the memory up to `b` and writes what it likes to free memory. -/
  | used {U : Int → Prop} {M : MDom} {a : Arena} {d : Dom} {b : Int} {mem : Int → UInt8} : MemHistory U M a d → a.beg ≤ b → b ≤ a.stop →
      SameButFree a a.mem mem → MemHistory (fun y => U y ∨ (a.beg ≤ y ∧ y < b)) M { a with beg := b, mem := mem } d
  /-- An allowed call of a mutating function. -/
  | edited {U : Int → Prop} {M M' : MDom} {a a' : Arena} {d d' : Dom} {junk : Nat → Out Bool} {op : MOp} {v v' : Nat} : MemHistory U M a d →
      Reads junk → op.Given U → Allowed junk d (op.read a.mem) → callOp junk (op.read a.mem) d = .ok (v, d') →
      memCall junk op M a = .ok (v', M', a') → MemHistory U M' a' d'

/-- The characters of the texts of a DOM. -/
def textBytes (d : Dom) : Nat :=
  (d.nodes.map fun nd => match nd.payload with | .text s => s.length | .tag _ => 0).sum

/-- A measure of a DOM: the entries of its tables, weighted, and the characters of its texts. -/
def domBytes (d : Dom) : Int :=
  312 + 104 * (d.nodes.length : Int) + 24 * (d.fc.length : Int) + 24 * (d.pc.length : Int) + 24 * (d.nn.length : Int) +
    24 * (d.boolProps.length : Int) + 32 * (d.props.length : Int) + 104 * (d.tagReg.length : Int) + 72 * (d.boolReg.length : Int) +
    72 * (d.keyReg.length : Int) + 72 * (d.valReg.length : Int) +
    64 * ((d.tagMap.identity : Int) + d.boolMap.identity + d.keyMap.identity + d.valMap.identity) + 4 * (textBytes d : Int)

end Flo.Spec
