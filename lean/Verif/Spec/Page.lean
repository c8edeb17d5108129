import Verif.Spec.Reference
import Verif.Spec.Print
import Verif.Spec.Forms
import Verif.Spec.Room
/-!
# The page: what an editing session does, on trees (C95, C96)

A page is a tree of numbered nodes, the next number, and the uses of tag names so far.  Every mutating function of the API is an
operation on such trees; nothing here refers to the DOM's tables, and the operations do not refer to the code.  `Shows d pg` says
that the DOM `d`, as seen through the API, is the page `pg`.
-/
namespace Flo.Spec

/-- What a node is. -/
inductive Label where
  | root
  | text (raw : Str)
  | elem (tag : Str) (pairs : List (Str × Str)) (bools : List Str)

/-- A numbered node with its children. -/
inductive PTree where
  | node (id : Nat) (label : Label) (kids : List PTree)

def PTree.id : PTree → Nat
  | .node n _ _ => n

mutual
/-- The nodes of a tree in document order. -/
def PTree.entries : PTree → List (Nat × Label)
  | .node n l ks => (n, l) :: entriesAll ks
def entriesAll : List PTree → List (Nat × Label)
  | [] => []
  | t :: ts => t.entries ++ entriesAll ts
end

/-! ## Numbering new trees -/

mutual
def Tree.size : Tree → Nat
  | .text _ => 1
  | .elem _ _ _ ts => 1 + sizeAll ts
def sizeAll : List Tree → Nat
  | [] => 0
  | t :: ts => t.size + sizeAll ts
end

mutual
/-- The nodes of a tree get consecutive numbers, from `k` on, in document order. -/
def Tree.number (k : Nat) : Tree → PTree
  | .text raw => .node k (.text raw) []
  | .elem tag ps bs ts => .node k (.elem tag ps bs) (numberAll (k + 1) ts)
def numberAll (k : Nat) : List Tree → List PTree
  | [] => []
  | t :: ts => t.number k :: numberAll (k + t.size) ts
end

/-! ## Changing a tree in one place -/

mutual
/-- Change the children of node `p`. -/
def PTree.within (p : Nat) (f : List PTree → List PTree) : PTree → PTree
  | .node n l ks => .node n l (if n = p then f ks else withinAll p f ks)
def withinAll (p : Nat) (f : List PTree → List PTree) : List PTree → List PTree
  | [] => []
  | t :: ts => t.within p f :: withinAll p f ts
end

mutual
/-- Change what node `n` is. -/
def PTree.relabel (n : Nat) (f : Label → Label) : PTree → PTree
  | .node m l ks => .node m (if m = n then f l else l) (relabelAll n f ks)
def relabelAll (n : Nat) (f : Label → Label) : List PTree → List PTree
  | [] => []
  | t :: ts => t.relabel n f :: relabelAll n f ts
end

/-- What stands before and behind node `n` in a list of siblings. -/
def around (n : Nat) : List PTree → Option (List PTree × List PTree)
  | [] => none
  | t :: ts => if t.id = n then some ([], ts) else (around n ts).map fun x => (t :: x.1, x.2)

mutual
/-- Put something else in the place of node `n`, given what stands before and behind it. -/
def PTree.instead (n : Nat) (f : List PTree → List PTree → List PTree) : PTree → PTree
  | .node m l ks => .node m l (match around n ks with
    | some x => f x.1 x.2
    | none => insteadAll n f ks)
def insteadAll (n : Nat) (f : List PTree → List PTree → List PTree) : List PTree → List PTree
  | [] => []
  | t :: ts => t.instead n f :: insteadAll n f ts
end

/-- A new text next to a text that stands before it is merged into that one. -/
def mergeLeft (before new : List PTree) : List PTree × List PTree :=
  match before.getLast?, new with
  | some (.node k (.text a) ks), .node _ (.text b) _ :: rest =>
    (before.dropLast ++ [.node k (.text (a ++ b!" " ++ b)) ks], rest)
  | _, _ => (before, new)

/-- A new text next to a text that stands behind it is merged into that one. -/
def mergeRight (new behind : List PTree) : List PTree × List PTree :=
  match new.getLast?, behind with
  | some (.node _ (.text b) _), .node k (.text a) ks :: rest =>
    (new.dropLast, .node k (.text (b ++ b!" " ++ a)) ks :: rest)
  | _, _ => (new, behind)

/-- New nodes between old ones. -/
def between (before new behind : List PTree) : List PTree :=
  (mergeLeft before new).1 ++ (mergeRight (mergeLeft before new).2 behind).1 ++ (mergeRight (mergeLeft before new).2 behind).2

/-! ## The operations -/

/-- An element's attributes after an attribute function. -/
def Label.attr (op : AttrOp) : Label → Label
  | .elem tag ps bs => match op with
    | .add _ k v => .elem tag (ps ++ [(k, v)]) bs
    | .addBool _ b => .elem tag ps (bs ++ [b])
    | .set _ k v => .elem tag (setFirst k v ps) bs
    | .remove _ k => .elem tag (removeFirst k ps) bs
    | .removeBool _ b => .elem tag ps (bs.erase b)
  | l => l

/-- A text, extended at the end or at the beginning. -/
def Label.addText (text : Str) (atEnd : Bool) : Label → Label
  | .text raw => .text (if atEnd then raw ++ b!" " ++ text else text ++ b!" " ++ raw)
  | l => l

def Label.rename (tag : Str) : Label → Label
  | .elem _ ps bs => .elem tag ps bs
  | l => l

/-- The trees a fragment stands for (`answer`: see `fragOutcome`). -/
def fragTrees (answer : Nat → Bool) (html : Str) : List Tree :=
  match fragOutcome answer html with
  | .document F => F
  | _ => []

/-- The new trees an operation brings. -/
def Op.brings (answer : Nat → Bool) : Op → List Tree
  | .setText _ t | .appendText _ t | .prependText _ t | .replaceText _ t => [.text t]
  | .appendDoc _ doc | .prependDoc _ doc | .replaceDoc _ doc => [.elem doc.tag doc.props doc.boolProps []]
  | .appendHTML _ h | .prependHTML _ h | .replaceHTML _ h => fragTrees answer h
  | _ => []

/-- The tag names an operation uses, with their forms. -/
def Op.names (answer : Nat → Bool) : Op → List (Str × Bool)
  | .setTag t _ p => [(t, p)]
  | .appendDoc _ doc | .prependDoc _ doc | .replaceDoc _ doc => [(doc.tag, doc.isPaired)]
  | .appendHTML _ h | .prependHTML _ h | .replaceHTML _ h => tokenForms (fragTokens answer h).1
  | _ => []

/-- What an operation does to the tree, `new` being the new nodes. -/
def Op.on (new : List PTree) : Op → PTree → PTree
  | .attr op => PTree.relabel op.node (Label.attr op)
  | .addText n t e => PTree.relabel n (Label.addText t e)
  | .setTag t n _ => PTree.relabel n (Label.rename t)
  | .setText n _ => PTree.within n (fun _ => new)
  | .removeNode n => PTree.instead n (fun before behind => before ++ behind)
  | .removeChildren n => PTree.within n (fun _ => [])
  | .appendDoc p _ | .appendText p _ | .appendHTML p _ => PTree.within p (fun ks => between ks new [])
  | .prependDoc p _ | .prependText p _ | .prependHTML p _ => PTree.within p (fun ks => between [] new ks)
  | .replaceDoc n _ | .replaceText n _ | .replaceHTML n _ => PTree.instead n (fun before behind => between before new behind)

structure Page where
  /-- the number the next new node gets -/
  next : Nat
  /-- the uses of tag names, oldest first -/
  forms : List (Str × Bool)
  root : PTree

/-- One operation on a page. -/
def Page.step (answer : Nat → Bool) (op : Op) (pg : Page) : Page where
  next := pg.next + sizeAll (op.brings answer)
  forms := pg.forms ++ op.names answer
  root := op.on (numberAll pg.next (op.brings answer)) pg.root

/-- A sequence of operations; each comes with its own answers (see `fragOutcome`). -/
def Page.run : List (Op × (Nat → Bool)) → Page → Page
  | [], pg => pg
  | o :: ops, pg => Page.run ops (pg.step o.2 o.1)

/-- The page of an input. -/
def Page.load (s : Str) : Page where
  next := 2 + sizeAll (treesOf (docTokens s).1)
  forms := tokenForms (docTokens s).1
  root := .node 1 .root (numberAll 2 (treesOf (docTokens s).1))

/-! ## When an operation is in order -/

def Label.isText : Label → Bool
  | .text _ => true
  | _ => false

def PTree.isText : PTree → Bool
  | .node _ l _ => l.isText

mutual
/-- What stands before and behind node `n`, wherever it is. -/
def PTree.siblings (n : Nat) : PTree → Option (List PTree × List PTree)
  | .node _ _ ks => (around n ks).or (siblingsAll n ks)
def siblingsAll (n : Nat) : List PTree → Option (List PTree × List PTree)
  | [] => none
  | t :: ts => (t.siblings n).or (siblingsAll n ts)
end

/-- A fragment that stands for at least one tree. -/
def FragmentOK (answer : Nat → Bool) (html : Str) : Prop := ∃ F, fragOutcome answer html = .document F ∧ F ≠ []

/-- Not the two replacements that go wrong (C27): of a first child by a single text that must be merged into the text behind it,
and of a node between two texts by two texts. -/
def NotClashing (F : List Tree) (before behind : List PTree) : Prop :=
  ¬(F.map Tree.isText = [true] ∧ before = [] ∧ (behind.head?.any PTree.isText) = true) ∧
  ¬(F.map Tree.isText = [true, true] ∧ (before.getLast?.any PTree.isText) = true ∧ (behind.head?.any PTree.isText) = true)

/-- The operation is applied to a node of the page that is of the right kind. -/
def Page.Allows (answer : Nat → Bool) (pg : Page) : Op → Prop
  | .attr op => ∃ l, (op.node, l) ∈ pg.root.entries
  | .addText n _ _ => ∃ raw, (n, .text raw) ∈ pg.root.entries
  | .setTag _ n _ => ∃ tag ps bs, (n, .elem tag ps bs) ∈ pg.root.entries
  | .setText n _ | .removeChildren n => ∃ l, (n, l) ∈ pg.root.entries ∧ l.isText = false
  | .appendDoc p _ | .prependDoc p _ | .appendText p _ | .prependText p _ => ∃ l, (p, l) ∈ pg.root.entries ∧ l.isText = false
  | .appendHTML p h | .prependHTML p h => (∃ l, (p, l) ∈ pg.root.entries ∧ l.isText = false) ∧ FragmentOK answer h
  | .removeNode n | .replaceDoc n _ | .replaceText n _ => ∃ x, pg.root.siblings n = some x
  | .replaceHTML n h => ∃ x, pg.root.siblings n = some x ∧ FragmentOK answer h ∧ NotClashing (fragTrees answer h) x.1 x.2

/-- Every operation of a sequence is in order when its turn comes. -/
def Page.AllowsAll : List (Op × (Nat → Bool)) → Page → Prop
  | [], _ => True
  | o :: ops, pg => pg.Allows o.2 o.1 ∧ Page.AllowsAll ops (pg.step o.2 o.1)

/-! ## What a page looks like -/

mutual
/-- The tree without its numbers. -/
def PTree.plain : PTree → Tree
  | .node _ (.text raw) _ => .text raw
  | .node _ (.elem tag ps bs) ks => .elem tag ps bs (plainAll ks)
  | .node _ .root ks => .elem [] [] [] (plainAll ks)
def plainAll : List PTree → List Tree
  | [] => []
  | t :: ts => t.plain :: plainAll ts
end

/-- The trees of the page. -/
def Page.trees (pg : Page) : List Tree :=
  match pg.root with
  | .node _ _ ks => plainAll ks

/-- The text of the page: every element in the form in which its name was first used. -/
def Page.print (pg : Page) : Str := printAll (fun tag => (firstForm pg.forms tag).getD false) pg.trees

/-! ## A DOM shows a page -/

/-- Node `n` of `d` is this. -/
def NodeIs (d : Dom) (n : Nat) : Label → Prop
  | .root => n = rootID
  | .text raw => textOf d n = some raw
  | .elem tag ps bs => tagOf d n = some tag ∧ pairs d n = ps ∧ bools d n = bs

mutual
/-- The DOM has this tree: every node is what the tree says, and its children, as seen through the navigation functions, are the
children of the tree; texts have none. -/
def PTree.Shown (d : Dom) : PTree → Prop
  | .node n l ks => NodeIs d n l ∧ kids d n = ks.map PTree.id ∧ (l.isText = true → ks = []) ∧ ShownAll d ks
def ShownAll (d : Dom) : List PTree → Prop
  | [] => True
  | t :: ts => t.Shown d ∧ ShownAll d ts
end

/-- The DOM is this page. -/
structure Shows (d : Dom) (pg : Page) : Prop where
  next : d.nodes.length = pg.next
  forms : ∀ tag, formOf d tag = firstForm pg.forms tag
  root : ∃ ks, pg.root = .node rootID .root ks
  tree : pg.root.Shown d

/-- Calling the operations one after the other. -/
def runEach : List (Op × (Nat → Bool)) → Dom → Out Dom
  | [], d => .ok d
  | o :: ops, d => do
    let d ← runOp (fun i => .ok (o.2 i)) o.1 d
    runEach ops d

end Flo.Spec
