import Verif.Spec.Source
/-!
# HTML source with markup errors (C76)

A `Item` is a piece of HTML as in `Spec/Source.lean`, or one of the errors authors make: a `<` that starts no tag, an end tag
that does not name the innermost open element, an end tag outside of every element, an end tag with more in it than its
name; a `Tail` is a sequence of start tags whose end tags are missing at the end of the input.  `render` is the text, `trees`
the document the parser makes of it.  Nothing here refers to the parser.
-/
namespace Flo.Spec

mutual
/-- `text`, `single` and `paired` are as in `Src`, except that anything without `>` may follow the name in the end tag of a
`paired` (`rest`).  `stray`: a `<` followed by white space (`gap`) and text.  `lone`: a `<` with no text behind it.  `skipped`:
an end tag outside of every element. -/
inductive Item where
  | text (first : Str) (more : List (Str × Str))
  | stray (gap first : Str) (more : List (Str × Str))
  | lone
  | skipped (name : Str)
  | single (tag : Str) (attrs : List AttrSrc) (gap : Str) (slash : Bool)
  | paired (tag : Str) (attrs : List AttrSrc) (gap lead : Str) (kids : Items) (rest : Str)
/-- A sequence of pieces, each followed by white space and comments. -/
inductive Items where
  | nil
  | cons (t : Item) (blank : Str) (rest : Items)
end

/-- Elements that are still open at the end of the input, each the last one in the one before it. -/
inductive Tail where
  | done
  | opened (tag : Str) (attrs : List AttrSrc) (gap lead : Str) (kids : Items) (rest : Tail)

/-! ## The text -/

mutual
def Item.render : Item → Str
  | .text first more => first ++ stretches more
  | .stray gap first more => b!"<" ++ gap ++ first ++ stretches more
  | .lone => b!"<"
  | .skipped name => b!"</" ++ name ++ b!">"
  | .single tag as gap slash =>
    b!"<" ++ tag ++ as.flatMap AttrSrc.render ++ gap ++ (if slash then b!"/>" else b!">")
  | .paired tag as gap lead ks rest =>
    b!"<" ++ tag ++ as.flatMap AttrSrc.render ++ gap ++ b!">" ++ lead ++ ks.render ++ b!"</" ++ tag ++ rest ++ b!">"
def Items.render : Items → Str
  | .nil => []
  | .cons t blank rest => t.render ++ blank ++ rest.render
end

def Tail.render : Tail → Str
  | .done => []
  | .opened tag as gap lead ks rest =>
    b!"<" ++ tag ++ as.flatMap AttrSrc.render ++ gap ++ b!">" ++ lead ++ ks.render ++ rest.render

/-! ## The document -/

mutual
/-- A stray `<` disappears, what follows it is text; an end tag outside of every element disappears. -/
def Item.trees : Item → List Tree
  | .text first more => [.text (first ++ joined more)]
  | .stray gap first more => [.text ((if gap = [] then [] else b!" ") ++ first ++ joined more)]
  | .lone => [.text []]
  | .skipped _ => []
  | .single tag as _ _ => [.elem tag (as.filterMap AttrSrc.pair) (as.filterMap AttrSrc.flag) []]
  | .paired tag as _ _ ks _ => [.elem tag (as.filterMap AttrSrc.pair) (as.filterMap AttrSrc.flag) ks.trees]
def Items.trees : Items → List Tree
  | .nil => []
  | .cons t _ rest => t.trees ++ rest.trees
end

/-- An element that is not closed contains everything up to the end of the input. -/
def Tail.trees : Tail → List Tree
  | .done => []
  | .opened tag as _ _ ks rest => [.elem tag (as.filterMap AttrSrc.pair) (as.filterMap AttrSrc.flag) (ks.trees ++ rest.trees)]

/-! ## Nesting -/

mutual
def Item.depth : Item → Nat
  | .paired _ _ _ _ ks _ => ks.depth + 1
  | _ => 0
def Items.depth : Items → Nat
  | .nil => 0
  | .cons t _ rest => max t.depth rest.depth
end

def Tail.depth : Tail → Nat
  | .done => 0
  | .opened _ _ _ _ ks rest => max ks.depth rest.depth + 1

/-! ## Which texts are meant -/

/-- Neither is the beginning of the other. -/
def Differs (a b : Str) : Prop := ∃ p x y r r', x ≠ y ∧ a = p ++ x :: r ∧ b = p ++ y :: r'

/-- `first` is not a tag when it is written directly behind `<`: it does not start with a letter or `!`, and if it starts with `/`
then it is inside of an element, and what follows is not the name of that element. -/
def NoTag (ctx : Option Str) (first : Str) : Prop :=
  ∃ c r, first = c :: r ∧ isAlphabetical c = false ∧ c ≠ 33 ∧ (c = 47 → ∃ tag, ctx = some tag ∧ Differs tag r)

/-- The piece ends with text. -/
def Item.IsText : Item → Prop
  | .text _ _ => True
  | .stray _ _ _ => True
  | .lone => True
  | _ => False

/-- The sequence starts with a text that is not a stray `<`. -/
def Items.StartsText : Items → Prop
  | .cons (.text _ _) _ _ => True
  | _ => False

mutual
/-- `ctx` is the name of the innermost open element. -/
def Item.Clean (ctx : Option Str) : Item → Prop
  | .text first more => Stretch first ∧ ∀ m ∈ more, Blank m.1 ∧ m.1 ≠ [] ∧ Stretch m.2
  | .stray gap first more => Spaces gap ∧ Stretch first ∧ (∀ m ∈ more, Blank m.1 ∧ m.1 ≠ [] ∧ Stretch m.2) ∧
      (gap = [] → NoTag ctx first)
  | .lone => True
  | .skipped name => ctx = none ∧ 62 ∉ name
  | .single tag as gap slash => TagName tag ∧ (∀ a ∈ as, a.Clean) ∧ Spaces gap ∧
      (slash = true → SlashOK as gap) ∧ (slash = true ∨ NeverContent tag)
  | .paired tag as gap lead ks rest => TagName tag ∧ (∀ a ∈ as, a.Clean) ∧ Spaces gap ∧ ¬NeverContent tag ∧
      Blank lead ∧ ks.Clean (some tag) ∧ 62 ∉ rest
def Items.Clean (ctx : Option Str) : Items → Prop
  | .nil => True
  | .cons t blank rest => t.Clean ctx ∧ Blank blank ∧ rest.Clean ctx ∧ (t.IsText → ¬rest.StartsText)
end

def Tail.Clean : Tail → Prop
  | .done => True
  | .opened tag as gap lead ks rest => TagName tag ∧ (∀ a ∈ as, a.Clean) ∧ Spaces gap ∧ ¬NeverContent tag ∧
      Blank lead ∧ ks.Clean (some tag) ∧ rest.Clean

end Flo.Spec
