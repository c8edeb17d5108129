import Verif.Spec.Forest
import Verif.Spec.Text
/-!
# HTML source text with a known tree (C09, C10, C28, C55)

A `Src` is a piece of HTML as an author writes it: an element with its attributes, the white space between them,
the quoting style of each value, comments and white space between the children.  `render` is the text, `tree` the
document it stands for, `Clean` says that it is well formed.  Nothing here refers to the parser.
-/
namespace Flo.Spec

/-- Space, tab, newline or carriage return. -/
def IsBlankChar (c : UInt8) : Prop := c = 32 ∨ c = 9 ∨ c = 10 ∨ c = 13

/-- Only white space. -/
def Spaces (g : Str) : Prop := ∀ c ∈ g, IsBlankChar c

/-- White space and terminated comments.  A comment `<!--body-->` ends at the first `-->` (which may overlap the
opening `<!--`, so `<!-->` is a comment too, but it is not of this form). -/
inductive Blank : Str → Prop
  | nil : Blank []
  | space {c : UInt8} {s : Str} : IsBlankChar c → Blank s → Blank (c :: s)
  | comment {body s : Str} : ¬ (b!"-->" <:+: b!"--" ++ body ++ b!"--") → Blank s →
      Blank (b!"<!--" ++ body ++ b!"-->" ++ s)

/-- An attribute with the white space before it: `key`, `key="value"`, `key='value'` or `key=value`. -/
inductive AttrSrc where
  | bool (gap key : Str)
  | dquoted (gap key value : Str)
  | squoted (gap key value : Str)
  | bare (gap key value : Str)

mutual
/-- A text (a first stretch of normalised text, then more of them, each preceded by white space and comments), an element
without content (`<br>`, `<br/>`), or an element with content and end tag.  In `single`,
`gap` is the white space before `>` or `/>`; in `paired`, `gap` is the white space before `>`, `lead` what comes
between the start tag and the first child, `gap'` the white space in the end tag. -/
inductive Src where
  | text (first : Str) (more : List (Str × Str))
  | single (tag : Str) (attrs : List AttrSrc) (gap : Str) (slash : Bool)
  | paired (tag : Str) (attrs : List AttrSrc) (gap lead : Str) (kids : Srcs) (gap' : Str)
/-- A sequence of pieces, each followed by white space and comments. -/
inductive Srcs where
  | nil
  | cons (t : Src) (blank : Str) (rest : Srcs)
end

/-! ## The text -/

def AttrSrc.render : AttrSrc → Str
  | .bool gap key => gap ++ key
  | .dquoted gap key value => gap ++ (key ++ b!"=\"" ++ value ++ b!"\"")
  | .squoted gap key value => gap ++ (key ++ b!"='" ++ value ++ b!"'")
  | .bare gap key value => gap ++ (key ++ b!"=" ++ value)

/-- The stretches as they are written. -/
def stretches (more : List (Str × Str)) : Str := more.flatMap (fun m => m.1 ++ m.2)

/-- What stands for them in the document: whatever separates two stretches becomes one space. -/
def joined (more : List (Str × Str)) : Str := more.flatMap (fun m => b!" " ++ m.2)

mutual
def Src.render : Src → Str
  | .text first more => first ++ stretches more
  | .single tag as gap slash =>
    b!"<" ++ tag ++ as.flatMap AttrSrc.render ++ gap ++ (if slash then b!"/>" else b!">")
  | .paired tag as gap lead ks gap' =>
    b!"<" ++ tag ++ as.flatMap AttrSrc.render ++ gap ++ b!">" ++ lead ++ ks.render ++ b!"</" ++ tag ++ gap' ++ b!">"
def Srcs.render : Srcs → Str
  | .nil => []
  | .cons t blank rest => t.render ++ blank ++ rest.render
end

/-! ## The document -/

def AttrSrc.pair : AttrSrc → Option (Str × Str)
  | .bool _ _ => none
  | .dquoted _ k v => some (k, v)
  | .squoted _ k v => some (k, v)
  | .bare _ k v => some (k, v)

def AttrSrc.flag : AttrSrc → Option Str
  | .bool _ k => some k
  | _ => none

mutual
def Src.tree : Src → Tree
  | .text first more => .text (first ++ joined more)
  | .single tag as _ _ => .elem tag (as.filterMap AttrSrc.pair) (as.filterMap AttrSrc.flag) []
  | .paired tag as _ _ ks _ => .elem tag (as.filterMap AttrSrc.pair) (as.filterMap AttrSrc.flag) ks.trees
def Srcs.trees : Srcs → List Tree
  | .nil => []
  | .cons t _ rest => t.tree :: rest.trees
end

/-- The document a text without markup stands for: one text that holds its words, or nothing if there are none. -/
def wordTrees (raw : Str) : List Tree := if words raw = [] then [] else [.text (unwords (words raw))]

/-! ## Nesting of the elements with content -/

mutual
def Src.depth : Src → Nat
  | .text _ _ => 0
  | .single _ _ _ _ => 0
  | .paired _ _ _ _ ks _ => ks.depth + 1
def Srcs.depth : Srcs → Nat
  | .nil => 0
  | .cons t _ rest => max t.depth rest.depth
end

/-! ## Well-formedness -/

/-- A tag name: starts with a letter (or `!`, as in `!DOCTYPE`), contains no white space and no `>`, does not end
in `/` and does not start a comment. -/
structure TagName (tag : Str) : Prop where
  start : ∃ c r, tag = c :: r ∧ (isAlphabetical c = true ∨ c = 33)
  chars : ∀ c ∈ tag, ¬IsBlankChar c ∧ c ≠ 62
  last : tag.getLast? ≠ some 47
  noComment : ¬ b!"!--" <+: tag

/-- No white space, no `=`, no `>`. -/
def Bare (s : Str) : Prop := ∀ c ∈ s, ¬IsBlankChar c ∧ c ≠ 61 ∧ c ≠ 62

/-- Does not start with a quote. -/
def NoQuoteStart (s : Str) : Prop := s.head? ≠ some 34 ∧ s.head? ≠ some 39

/-- An attribute name: not empty, bare, does not start with a quote or `/`. -/
structure KeyName (key : Str) : Prop where
  ne : key ≠ []
  bare : Bare key
  start : NoQuoteStart key
  slash : key.head? ≠ some 47

def AttrSrc.Clean : AttrSrc → Prop
  | .bool gap key => Spaces gap ∧ gap ≠ [] ∧ KeyName key
  | .dquoted gap key value => Spaces gap ∧ gap ≠ [] ∧ KeyName key ∧ 34 ∉ value
  | .squoted gap key value => Spaces gap ∧ gap ≠ [] ∧ KeyName key ∧ 39 ∉ value
  | .bare gap key value => Spaces gap ∧ gap ≠ [] ∧ KeyName key ∧ Bare value ∧ NoQuoteStart value

/-- The value of the attribute is quoted. -/
def AttrSrc.Quoted : AttrSrc → Prop
  | .dquoted _ _ _ => True
  | .squoted _ _ _ => True
  | _ => False

/-- `/>` may follow directly after the tag name or a quoted value; otherwise white space is needed. -/
def SlashOK (as : List AttrSrc) (gap : Str) : Prop :=
  gap ≠ [] ∨ ∀ a, as.getLast? = some a → a.Quoted

/-- Elements of this name never have content: the void elements and everything starting with `!`. -/
def NeverContent (tag : Str) : Prop :=
  tag ∈ [b!"area", b!"base", b!"br", b!"col", b!"embed", b!"hr", b!"img", b!"input", b!"link", b!"meta",
   b!"source", b!"track", b!"wbr"] ∨ tag.head? = some 33

/-- The sequence starts with a text. -/
def Srcs.StartsText : Srcs → Prop
  | .cons (.text _ _) _ _ => True
  | _ => False

/-- A stretch of text: white-space normalised, not empty, not starting with a space. -/
def Stretch (t : Str) : Prop := NormalText t ∧ ∃ c r, t = c :: r ∧ c ≠ 32

mutual
def Src.Clean : Src → Prop
  | .text first more => Stretch first ∧ ∀ m ∈ more, Blank m.1 ∧ m.1 ≠ [] ∧ Stretch m.2
  | .single tag as gap slash => TagName tag ∧ (∀ a ∈ as, a.Clean) ∧ Spaces gap ∧
      (slash = true → SlashOK as gap) ∧ (slash = true ∨ NeverContent tag)
  | .paired tag as gap lead ks gap' => TagName tag ∧ (∀ a ∈ as, a.Clean) ∧ Spaces gap ∧ ¬NeverContent tag ∧
      Blank lead ∧ ks.Clean ∧ Spaces gap'
def Srcs.Clean : Srcs → Prop
  | .nil => True
  | .cons t blank rest => t.Clean ∧ Blank blank ∧ rest.Clean ∧
      (match t with | .text _ _ => ¬rest.StartsText | _ => True)
end

end Flo.Spec
