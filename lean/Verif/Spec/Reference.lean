import Verif.Spec.Source
/-!
# What every input means (C93, C02, C03, C55, C74)

A second reader of HTML, independent of the parser: it works on the bytes that are left, knows no positions, no node numbers and
no tables, and yields tokens, from which the trees are made.  It says for every input, well formed or not, which document it
stands for (`Outcome`).  Nothing here refers to the parser.
-/
namespace Flo.Spec

/-- Space, tab, newline or carriage return. -/
def blank (c : UInt8) : Bool := c == 32 || c == 9 || c == 10 || c == 13

/-- Without the white space at the beginning. -/
def skipBlank (r : Str) : Str := r.dropWhile blank

/-- What follows the first occurrence of `m`; nothing if it does not occur. -/
def past (m : Str) : Str → Str
  | [] => []
  | c :: r => if m.isPrefixOf (c :: r) then (c :: r).drop m.length else past m r

/-- A comment: `<!--` and at least one more byte. -/
def atComment (r : Str) : Bool := (b!"<!--").isPrefixOf r && decide (4 < r.length)

/-- It ends behind the first `-->`, which may overlap the `<!--`; without one it takes up all the rest. -/
def pastComment (r : Str) : Str := past b!"-->" (r.drop 2)

/-- An end tag of the element `name`: `</name` and at least one more byte. -/
def atEnd (name r : Str) : Bool := (b!"</" ++ name).isPrefixOf r && decide (name.length + 2 < r.length)

/-- A start tag: `<` and a letter or `!`. -/
def atStart : Str → Bool
  | lt :: c :: _ => lt == 60 && (isAlphabetical c || c == 33)
  | _ => false

/-! ## Texts -/

/-- The text up to the next `<` that starts no comment, and what is left; a comment counts as a space. -/
def textPart : Nat → Str → Str × Str
  | 0, r => ([], r)
  | _ + 1, [] => ([], [])
  | f + 1, c :: r =>
    if c = 60 then
      if atComment (c :: r) then (32 :: (textPart f (pastComment (c :: r))).1, (textPart f (pastComment (c :: r))).2)
      else ([], c :: r)
    else (c :: (textPart f r).1, (textPart f r).2)

/-- The words of the text separated by single spaces.  If the text starts with white space (this happens behind a stray `<`),
one space is kept before the first word. -/
def textValue (r : Str) (t : Str) : Str :=
  if (r.head?.any blank) ∧ words t ≠ [] then 32 :: unwords (words t) else unwords (words t)

/-! ## Start tags -/

/-- An attribute name or value and what is left: in quotes (a missing closing quote costs the last byte of the input),
or up to white space, `=` or `>`.  `none`: a quote is the last byte of the input. -/
def word : Str → Option (Str × Str)
  | [] => some ([], [])
  | q :: r =>
    if q = 34 ∨ q = 39 then
      if r = [] then none
      else match r.dropWhile (· != q) with
        | [] => some (r.dropLast, [])
        | _ :: r' => some (r.takeWhile (· != q), r')
    else some ((q :: r).takeWhile (fun c => !(blank c || c == 61 || c == 62)), (q :: r).dropWhile (fun c => !(blank c || c == 61 || c == 62)))

/-- An attribute with a value, or a name alone. -/
inductive AttrRead where
  | pair (key value : Str)
  | flag (key : Str)
  deriving DecidableEq, Repr

/-- The attributes up to `>` or the end of the input, whether the element can still have content (a `/` among the attributes
says it has none), and what is left.  `none`: the input ends in a quote that opens an attribute. -/
def attributes : Nat → Str → Bool → Option (List AttrRead × Bool × Str)
  | 0, r, content => some ([], content, r)
  | f + 1, r, content =>
    match skipBlank r with
    | [] => some ([], content, [])
    | c :: r' =>
      if c = 62 then some ([], content, r')
      else if c = 47 then attributes f r' false
      else
        match word (c :: r') with
        | none => none
        | some (key, r1) =>
          if r1.head? = some 61 then
            match word (r1.drop 1) with
            | none => none
            | some (value, r2) => (attributes f r2 content).map fun x => (.pair key value :: x.1, x.2)
          else (attributes f r1 content).map fun x => (.flag key :: x.1, x.2)

instance (tag : Str) : Decidable (NeverContent tag) := inferInstanceAs (Decidable (_ ∨ _))

/-- The bytes of a tag name. -/
def nameByte (c : UInt8) : Bool := !(blank c || c == 62)

/-- `/>` directly behind the name. -/
def slashed (r : Str) : Bool := (r.takeWhile nameByte).getLast? == some 47 && (r.dropWhile nameByte).head? == some 62

/-- The name in a start tag. -/
def startName (r : Str) : Str := if slashed r then (r.takeWhile nameByte).dropLast else r.takeWhile nameByte

/-- A start tag, from behind the `<`: name, attributes, whether it has content, what is left. -/
def startTag (r : Str) : Option (Str × List AttrRead × Bool × Str) :=
  (attributes (r.length + 1) (r.dropWhile nameByte) (!slashed r && !decide (NeverContent (startName r)))).map fun x => (startName r, x)

/-! ## Tokens -/

inductive Token where
  | text (t : Str)
  | start (tag : Str) (attrs : List AttrRead) (content : Bool)
  | close
  deriving DecidableEq, Repr

/-- An end tag of the innermost open element (`names` are the open elements, innermost first); `stray` says whether `</` outside
of every element is an end tag. -/
def endTag (stray : Str → Bool) (r : Str) : List Str → Bool
  | [] => (b!"</").isPrefixOf r && stray r
  | name :: _ => atEnd name r

/-- The tokens of the rest of the input, and whether it ends in a quote that opens an attribute.  `names` are the open elements. -/
def tokens (stray : Str → Bool) : Nat → Str → List Str → List Token × Bool
  | 0, _, _ => ([], false)
  | f + 1, r, names =>
    match skipBlank r with
    | [] => ([], false)
    | c :: r' =>
      if atComment (c :: r') then tokens stray f (pastComment (c :: r')) names
      else if endTag stray (c :: r') names then
        match names with
        | [] => tokens stray f (past b!">" (c :: r')) []
        | _ :: names => let x := tokens stray f (past b!">" (c :: r')) names; (.close :: x.1, x.2)
      else if atStart (c :: r') then
        match startTag r' with
        | none => ([], true)
        | some (tag, attrs, content, left) =>
          let x := tokens stray f left (if content then tag :: names else names)
          (.start tag attrs content :: x.1, x.2)
      else
        let t := if c = 60 then r' else c :: r'
        let x := tokens stray f (textPart (t.length + 1) t).2 names
        (.text (textValue t (textPart (t.length + 1) t).1) :: x.1, x.2)

/-- The tokens of a document: there `</` outside of every element is an end tag if one more byte follows. -/
def docTokens (s : Str) : List Token × Bool := tokens (fun r => decide (2 < r.length)) (s.length + 1) s []

/-! ## Trees -/

def AttrRead.pair? : AttrRead → Option (Str × Str)
  | .pair k v => some (k, v)
  | .flag _ => none

def AttrRead.flag? : AttrRead → Option Str
  | .pair _ _ => none
  | .flag k => some k

/-- The trees up to the end tag of the innermost open element, and the tokens that are left. -/
def treesFrom : Nat → List Token → List Tree × List Token
  | 0, ts => ([], ts)
  | _ + 1, [] => ([], [])
  | _ + 1, .close :: ts => ([], ts)
  | f + 1, .text t :: ts => (.text t :: (treesFrom f ts).1, (treesFrom f ts).2)
  | f + 1, .start tag as false :: ts =>
    (.elem tag (as.filterMap AttrRead.pair?) (as.filterMap AttrRead.flag?) [] :: (treesFrom f ts).1, (treesFrom f ts).2)
  | f + 1, .start tag as true :: ts =>
    (.elem tag (as.filterMap AttrRead.pair?) (as.filterMap AttrRead.flag?) (treesFrom f ts).1 ::
      (treesFrom f (treesFrom f ts).2).1, (treesFrom f (treesFrom f ts).2).2)

/-- The trees of a sequence of tokens. -/
def treesOf (ts : List Token) : List Tree := (treesFrom (ts.length + 1) ts).1

/-- Is an element with content opened while `limit` of them are open?  (`n` are open.) -/
def nestsBeyond (limit : Nat) : Nat → List Token → Bool
  | _, [] => false
  | n, .start _ _ true :: ts => decide (limit ≤ n) || nestsBeyond limit (n + 1) ts
  | n, .close :: ts => nestsBeyond limit (n - 1) ts
  | n, _ :: ts => nestsBeyond limit n ts

/-- What comes of an input: a document, NULL (an element is opened within 255 others), or a read outside the input. -/
inductive Outcome where
  | document (ts : List Tree)
  | null
  | outside

/-- What comes of parsing `s`. -/
def outcome (s : Str) : Outcome :=
  if nestsBeyond 255 0 (docTokens s).1 then .null
  else if (docTokens s).2 then .outside
  else .document (treesOf (docTokens s).1)

/-- The tokens of a fragment.  In a fragment, whether `</` outside of every element is an end tag depends on memory outside the
nesting stack; `answer i` is what is found there when position `i` is read. -/
def fragTokens (answer : Nat → Bool) (html : Str) : List Token × Bool :=
  tokens (fun r => answer (html.length - r.length)) (html.length + 1) html []

/-- What comes of parsing the fragment `html`; here an element may be opened within 255 others, not within 256. -/
def fragOutcome (answer : Nat → Bool) (html : Str) : Outcome :=
  if nestsBeyond 256 0 (fragTokens answer html).1 then .null
  else if (fragTokens answer html).2 then .outside
  else .document (treesOf (fragTokens answer html).1)

/-- The uses of tag names, in document order, with their forms (with or without content). -/
def tokenForms : List Token → List (Str × Bool)
  | [] => []
  | .start tag _ content :: ts => (tag, content) :: tokenForms ts
  | _ :: ts => tokenForms ts

end Flo.Spec
