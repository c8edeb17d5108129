import Verif.Spec.Page
import Verif.Spec.PageRefuse
/-!
# Renaming bytes that are not markup (C113)
-/
namespace Flo.Spec

/-- The bytes that are markup: white space and `! " ' - / < = >`. -/
def markupBytes : Str := [9, 10, 13, 32, 33, 34, 39, 45, 47, 60, 61, 62]

/-- The names that mean something: the elements that never have content, and the one that is closed by `>` alone. -/
def knownNames : List Str :=
  [b!"area", b!"base", b!"br", b!"col", b!"embed", b!"hr", b!"img", b!"input", b!"link", b!"meta", b!"source", b!"track", b!"wbr", b!"!DOCTYPE"]

/-- Different bytes stay different, markup stays as it is, letters stay letters and other bytes other bytes, and known names stay
as they are. -/
structure Neutral (π : UInt8 → UInt8) : Prop where
  inj : ∀ a b, π a = π b → a = b
  markup : ∀ c ∈ markupBytes, π c = c
  letter : ∀ c, isAlphabetical (π c) = isAlphabetical c
  known : ∀ n ∈ knownNames, n.map π = n

mutual
/-- A tree, every byte renamed. -/
def Tree.mapBytes (π : UInt8 → UInt8) : Tree → Tree
  | .text raw => .text (raw.map π)
  | .elem tag ps bs ts => .elem (tag.map π) (ps.map fun p => (p.1.map π, p.2.map π)) (bs.map (·.map π)) (mapBytesAll π ts)
def mapBytesAll (π : UInt8 → UInt8) : List Tree → List Tree
  | [] => []
  | t :: ts => t.mapBytes π :: mapBytesAll π ts
end

def DocNode.mapBytes (π : UInt8 → UInt8) (doc : DocNode) : DocNode where
  tag := doc.tag.map π
  isPaired := doc.isPaired
  boolProps := doc.boolProps.map (·.map π)
  props := doc.props.map fun p => (p.1.map π, p.2.map π)

def AttrOp.mapBytes (π : UInt8 → UInt8) : AttrOp → AttrOp
  | .add n k v => .add n (k.map π) (v.map π)
  | .addBool n b => .addBool n (b.map π)
  | .set n k v => .set n (k.map π) (v.map π)
  | .remove n k => .remove n (k.map π)
  | .removeBool n b => .removeBool n (b.map π)

/-- An operation, every byte of its strings renamed. -/
def Op.mapBytes (π : UInt8 → UInt8) : Op → Op
  | .attr op => .attr (AttrOp.mapBytes π op)
  | .addText n t a => .addText n (t.map π) a
  | .setTag t n p => .setTag (t.map π) n p
  | .setText n t => .setText n (t.map π)
  | .removeNode n => .removeNode n
  | .removeChildren n => .removeChildren n
  | .appendDoc p doc => .appendDoc p (DocNode.mapBytes π doc)
  | .appendText p t => .appendText p (t.map π)
  | .appendHTML p h => .appendHTML p (h.map π)
  | .prependDoc p doc => .prependDoc p (DocNode.mapBytes π doc)
  | .prependText p t => .prependText p (t.map π)
  | .prependHTML p h => .prependHTML p (h.map π)
  | .replaceDoc n doc => .replaceDoc n (DocNode.mapBytes π doc)
  | .replaceText n t => .replaceText n (t.map π)
  | .replaceHTML n h => .replaceHTML n (h.map π)

/-- A session, every byte of its strings renamed. -/
def mapSession (π : UInt8 → UInt8) (ops : List (Op × (Nat → Bool))) : List (Op × (Nat → Bool)) :=
  ops.map fun o => (o.1.mapBytes π, o.2)

def Label.mapBytes (π : UInt8 → UInt8) : Label → Label
  | .root => .root
  | .text raw => .text (raw.map π)
  | .elem tag ps bs => .elem (tag.map π) (ps.map fun p => (p.1.map π, p.2.map π)) (bs.map (·.map π))

mutual
def PTree.mapBytes (π : UInt8 → UInt8) : PTree → PTree
  | .node n l ks => .node n (l.mapBytes π) (PTree.mapBytesAll π ks)
def PTree.mapBytesAll (π : UInt8 → UInt8) : List PTree → List PTree
  | [] => []
  | t :: ts => t.mapBytes π :: PTree.mapBytesAll π ts
end

/-- A page, every byte of its strings renamed; the nodes keep their numbers. -/
def Page.mapBytes (π : UInt8 → UInt8) (pg : Page) : Page where
  next := pg.next
  forms := pg.forms.map fun u => (u.1.map π, u.2)
  root := pg.root.mapBytes π

end Flo.Spec
