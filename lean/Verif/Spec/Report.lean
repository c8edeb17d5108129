import Verif.Spec.Status
import Verif.Spec.Sets
/-!
# The report on a difference (C79) and what the comparison looks at (C41)
-/
namespace Flo.Spec

/-- The comparison does not tell these lists of names apart: same names, and the same count of different names (in which
empty names are counted each time). -/
def SameNames (xs ys : List Str) : Prop := usedSlots xs = usedSlots ys ∧ ∀ s, s ∈ xs ↔ s ∈ ys

/-- The comparison does not tell these nodes apart. -/
structure SameLabel (d₁ d₂ : Dom) (a b : Nat) : Prop where
  type : typeOf d₁ a = typeOf d₂ b
  text : textOf d₁ a = textOf d₂ b
  tag : tagOf d₁ a = tagOf d₂ b
  paired : pairedOf d₁ a = pairedOf d₂ b
  bools : typeOf d₁ a = some .document → SameNames (bools d₁ a) (bools d₂ b)
  keys : typeOf d₁ a = some .document → SameNames ((pairs d₁ a).map (·.1)) ((pairs d₂ b).map (·.1))
  values : typeOf d₁ a = some .document → SameNames ((pairs d₁ a).map (·.2)) ((pairs d₂ b).map (·.2))

/-- `x` (in `d₁`, below `a`) and `y` (in `d₂`, below `b`) are the first nodes, in document order, at which the two trees
differ: either the nodes themselves differ, or all their common children are the same and one has more of them. -/
inductive FirstDiff (R : Nat → Nat → Prop) (d₁ d₂ : Dom) : Nat → Nat → Nat → Nat → Prop
  | here {a b : Nat} : ¬R a b → FirstDiff R d₁ d₂ a b a b
  | size {a b : Nat} : R a b → (kids d₁ a).length ≠ (kids d₂ b).length →
      (∀ (i x y : Nat), (kids d₁ a)[i]? = some x → (kids d₂ b)[i]? = some y → SameTree R d₁ d₂ x y) →
      FirstDiff R d₁ d₂ a b a b
  | inside {a b i x y u v : Nat} : R a b → (kids d₁ a)[i]? = some x → (kids d₂ b)[i]? = some y →
      (∀ (j x y : Nat), j < i → (kids d₁ a)[j]? = some x → (kids d₂ b)[j]? = some y → SameTree R d₁ d₂ x y) →
      FirstDiff R d₁ d₂ x y u v → FirstDiff R d₁ d₂ a b u v

/-- What is said about two lists of names that differ. -/
def namesStatus (xs ys : List Str) : CStatus := if usedSlots xs = usedSlots ys then .differentContent else .differentSizes

/-- What is said about two nodes at which the documents differ: the first of the following that applies. -/
inductive Verdict (d₁ d₂ : Dom) (a b : Nat) : CStatus → Prop
  | kind : typeOf d₁ a ≠ typeOf d₂ b ∨ pairedOf d₁ a ≠ pairedOf d₂ b → Verdict d₁ d₂ a b .differentNodeType
  | text : typeOf d₁ a = typeOf d₂ b → pairedOf d₁ a = pairedOf d₂ b → textOf d₁ a ≠ textOf d₂ b ∨ tagOf d₁ a ≠ tagOf d₂ b →
      Verdict d₁ d₂ a b .differentContent
  | bools {s : Str} : tagOf d₁ a = some s → tagOf d₂ b = some s → pairedOf d₁ a = pairedOf d₂ b →
      ¬SameNames (bools d₁ a) (bools d₂ b) → Verdict d₁ d₂ a b (namesStatus (bools d₁ a) (bools d₂ b))
  | keys {s : Str} : tagOf d₁ a = some s → tagOf d₂ b = some s → pairedOf d₁ a = pairedOf d₂ b →
      SameNames (bools d₁ a) (bools d₂ b) → ¬SameNames ((pairs d₁ a).map (·.1)) ((pairs d₂ b).map (·.1)) →
      Verdict d₁ d₂ a b (namesStatus ((pairs d₁ a).map (·.1)) ((pairs d₂ b).map (·.1)))
  | values {s : Str} : tagOf d₁ a = some s → tagOf d₂ b = some s → pairedOf d₁ a = pairedOf d₂ b →
      SameNames (bools d₁ a) (bools d₂ b) → SameNames ((pairs d₁ a).map (·.1)) ((pairs d₂ b).map (·.1)) →
      ¬SameNames ((pairs d₁ a).map (·.2)) ((pairs d₂ b).map (·.2)) →
      Verdict d₁ d₂ a b (namesStatus ((pairs d₁ a).map (·.2)) ((pairs d₂ b).map (·.2)))
  | children : SameLabel d₁ d₂ a b → (kids d₁ a).length ≠ (kids d₂ b).length → Verdict d₁ d₂ a b .differentSizes

/-- `ls` lists the non-empty strings of `xs`, each once. -/
def Lists (ls xs : List Str) : Prop := ls.Nodup ∧ ∀ s, s ∈ ls ↔ s ≠ [] ∧ s ∈ xs

/-- One line for each string. -/
def linesText (ls : List Str) : Str := ls.flatMap (· ++ b!"\n")

/-- The report on two lists of names: whether their counts differ or just the names, and the names of both elements. -/
def namesReport (xs ys : List Str) (caption tag1 tag2 : Str) (ls1 ls2 : List Str) : Str :=
  (if usedSlots xs = usedSlots ys then b!"Collections have different content\n" else b!"Collections have different sizes\n") ++
  caption ++ b!"Printing certain attributes of node 1 with tag " ++ tag1 ++ b!"\n" ++ linesText ls1 ++
  b!"Printing certain attributes of node 2 with tag " ++ tag2 ++ b!"\n" ++ linesText ls2

/-- What the report on the nodes `a` and `b` can be.  Note `tags`: the name of the first node is printed for both. -/
inductive DiffReport (d₁ d₂ : Dom) (a b : Nat) : Str → Prop
  | types {t u : NodeType} : typeOf d₁ a = some t → typeOf d₂ b = some u → t ≠ u →
      DiffReport d₁ d₂ a b (b!"Uncomparable nodes:\nnode 1 type: " ++ typeName t ++ b!"\nnode 2 type: " ++ typeName u ++ b!"\n")
  | texts {s t : Str} : textOf d₁ a = some s → textOf d₂ b = some t → s ≠ t →
      DiffReport d₁ d₂ a b (b!"Different text nodes:\nnode 1: " ++ s ++ b!"\nnode 2: " ++ t ++ b!"\n")
  | single {s t : Str} {p : Bool} : tagOf d₁ a = some s → tagOf d₂ b = some t → pairedOf d₁ a = some p → pairedOf d₂ b = some (!p) →
      DiffReport d₁ d₂ a b (b!"Uncomparable nodes: single node and paired node.\nFound single node in node " ++
        (if p then b!"2" else b!"1") ++ b!".\nnode 1 tag: " ++ s ++ b!"\nnode 2 tag: " ++ t ++ b!"\n")
  | tags {s t : Str} : tagOf d₁ a = some s → tagOf d₂ b = some t → pairedOf d₁ a = pairedOf d₂ b → s ≠ t →
      DiffReport d₁ d₂ a b (b!"Nodes have different tags.\nnode 1 tag: " ++ s ++ b!"\nnode 2 tag: " ++ s ++ b!"\n")
  | bools {s : Str} {l m : List Str} : tagOf d₁ a = some s → tagOf d₂ b = some s → pairedOf d₁ a = pairedOf d₂ b →
      ¬SameNames (bools d₁ a) (bools d₂ b) → Lists l (bools d₁ a) → Lists m (bools d₂ b) →
      DiffReport d₁ d₂ a b (namesReport (bools d₁ a) (bools d₂ b) b!"Nodes contain different bool props\n" s s l m)
  | keys {s : Str} {l m : List Str} : tagOf d₁ a = some s → tagOf d₂ b = some s → pairedOf d₁ a = pairedOf d₂ b →
      SameNames (bools d₁ a) (bools d₂ b) →
      ¬SameNames ((pairs d₁ a).map (·.1)) ((pairs d₂ b).map (·.1)) →
      Lists l ((pairs d₁ a).map (·.1)) → Lists m ((pairs d₂ b).map (·.1)) →
      DiffReport d₁ d₂ a b (namesReport ((pairs d₁ a).map (·.1)) ((pairs d₂ b).map (·.1)) b!"Nodes contain different key props\n" s s l m)
  | values {s : Str} {l m : List Str} : tagOf d₁ a = some s → tagOf d₂ b = some s → pairedOf d₁ a = pairedOf d₂ b →
      SameNames (bools d₁ a) (bools d₂ b) → SameNames ((pairs d₁ a).map (·.1)) ((pairs d₂ b).map (·.1)) →
      ¬SameNames ((pairs d₁ a).map (·.2)) ((pairs d₂ b).map (·.2)) →
      Lists l ((pairs d₁ a).map (·.2)) → Lists m ((pairs d₂ b).map (·.2)) →
      DiffReport d₁ d₂ a b (namesReport ((pairs d₁ a).map (·.2)) ((pairs d₂ b).map (·.2)) b!"Nodes contain different value props\n" s s l m)
  | unknown {t : NodeType} : typeOf d₁ a = some t → typeOf d₂ b = some t → (t = .removed ∨ t = .error) →
      DiffReport d₁ d₂ a b (b!"Comparison not implemented for this node type. Node type: " ++ typeName t ++ b!"\n")
  | none : typeOf d₁ a ≠ some .removed → typeOf d₁ a ≠ some .error → SameLabel d₁ d₂ a b →
      DiffReport d₁ d₂ a b b!"Could not find any differences for the supplied nodes & documents combination.\n"

end Flo.Spec
