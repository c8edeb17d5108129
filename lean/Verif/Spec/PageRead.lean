import Verif.Spec.PageQuery
import Verif.Spec.Undo
import Verif.Spec.Walk
import Verif.Spec.Store
/-!
# Reading the page (C102)

What the navigation functions, the walks, the text content and the attribute readers must answer, in terms of the page alone.
-/
namespace Flo.Spec

/-- The text of a node that is a text. -/
def Label.words : Label → Option Str
  | .text raw => some raw
  | _ => none

/-- The texts among these nodes, in their order. -/
def texts (es : List (Nat × Label)) : List Str := es.filterMap fun e => e.2.words

/-- The nodes of the page from node `n` on, in document order. -/
def Page.onwards (pg : Page) (n : Nat) : List (Nat × Label) := pg.root.entries.dropWhile fun e => e.1 ≠ n

/-- Some node stands right behind node `n`, below the same parent. -/
def Page.HasNext (pg : Page) (n : Nat) : Prop := ∃ p l l₁ b l₂, pg.Has p l (l₁ ++ n :: b :: l₂)

/-- The navigation functions follow the page. -/
structure NavigatesPage (d : Dom) (pg : Page) : Prop where
  first : ∀ n l cs, pg.Has n l cs → getFirstChild n d = cs.headD 0
  parent : ∀ n l cs, pg.Has n l cs → ∀ c ∈ cs, getParent c d = n
  next : ∀ n l l₁ a b l₂, pg.Has n l (l₁ ++ a :: b :: l₂) → getNext a d = b
  previous : ∀ n l l₁ a b l₂, pg.Has n l (l₁ ++ a :: b :: l₂) → getPrevious b d = a
  last : ∀ n l l₁ a, pg.Has n l (l₁ ++ [a]) → getNext a d = 0
  firstPrevious : ∀ n l a l₂, pg.Has n l (a :: l₂) → getPrevious a d = 0
  top : ∀ cs, pg.Has rootID .root cs → getParent rootID d = 0 ∧ getNext rootID d = 0 ∧ getPrevious rootID d = 0

/-- The walks and the text content follow the page.  `f` bounds the number of steps a caller makes.  For a childless node that
is followed by a sibling they do not stop at the end of the node but go on through the rest of the page (C16). -/
structure WalksPage (d : Dom) (pg : Page) : Prop where
  all : ∀ f, pg.next ≤ f → walkFrom (fun c => traverseDom c d) f rootID = .ok (pg.root.entries.map Prod.fst)
  part : ∀ n sub, pg.root.part n = some sub → sub.entries.length ≠ 1 ∨ ¬pg.HasNext n →
    (∀ f, pg.next ≤ f → walkFrom (fun c => traverseNode c n d) f n = .ok (sub.entries.map Prod.fst)) ∧
    getTextContent n d = .ok (texts sub.entries.tail)
  leaf : ∀ n l, pg.Has n l [] → pg.HasNext n →
    (∀ f, pg.next ≤ f → walkFrom (fun c => traverseNode c n d) f n = .ok ((pg.onwards n).map Prod.fst)) ∧
    getTextContent n d = .ok (texts (pg.onwards n).tail)

/-- The attribute readers follow the page. -/
structure AttrsPage (d : Dom) (pg : Page) : Prop where
  property : ∀ n l cs, pg.Has n l cs → ∀ k v, hasProperty n k v d = true ↔ (k, v) ∈ l.pairs
  key : ∀ n l cs, pg.Has n l cs → ∀ k, hasPropKey n k d = true ↔ ∃ v, (k, v) ∈ l.pairs
  value : ∀ n l cs, pg.Has n l cs → ∀ v, hasPropValue n v d = true ↔ ∃ k, (k, v) ∈ l.pairs
  bool : ∀ n l cs, pg.Has n l cs → ∀ b, hasBoolProp n b d = true ↔ b ∈ l.bools
  get : ∀ n l cs, pg.Has n l cs → ∀ k, getValue n k d = .ok ((lookup k l.pairs).getD [])

end Flo.Spec
