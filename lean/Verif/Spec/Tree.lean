import Verif.Model.Dom
/-!
# What the navigation functions say about the document

Everything here is phrased with the public navigation functions only
(`getFirstChild`, `getNext`, `getParent`, `getPrevious`).
-/
namespace Flo.Spec

/-- The nodes met by following `getNext` from `c` until 0, at most `fuel` of them. -/
def chainFrom (d : Dom) : Nat → Nat → List Nat
  | 0, _ => []
  | f + 1, c => if c = 0 then [] else c :: chainFrom d f (getNext c d)

/-- The child list of `p` as an API user sees it: `getFirstChild`, then `getNext` again and again. -/
def kids (d : Dom) (p : Nat) : List Nat := chainFrom d d.nodes.length (getFirstChild p d)

/-- Preorder of the subtree below `p` (`p` included), recursion depth at most `fuel`. -/
def preorderF (d : Dom) : Nat → Nat → List Nat
  | 0, _ => []
  | f + 1, p => p :: (kids d p).flatMap (preorderF d f)

/-- Preorder of the subtree of `p`. -/
def preorder (d : Dom) (p : Nat) : List Nat := preorderF d d.nodes.length p

/-- `n` is part of the document: reachable from the root by child steps. -/
inductive Live (d : Dom) : Nat → Prop
  | root : Live d rootID
  | child {p c : Nat} : Live d p → c ∈ kids d p → Live d c

/-- All navigation functions agree with the child lists, and the child lists form a forest. -/
structure NavOK (d : Dom) : Prop where
  nodup : ∀ p, (kids d p).Nodup
  disjoint : ∀ p q c, c ∈ kids d p → c ∈ kids d q → p = q
  range : ∀ p c, c ∈ kids d p → p < c ∧ 2 ≤ c ∧ c < d.nodes.length
  parent : ∀ p c, c ∈ kids d p → getParent c d = p
  first : ∀ p, getFirstChild p d = (kids d p).headD 0
  next : ∀ p l₁ a b l₂, kids d p = l₁ ++ a :: b :: l₂ → getNext a d = b ∧ getPrevious b d = a
  lastNext : ∀ p l a, kids d p = l ++ [a] → getNext a d = 0
  firstPrev : ∀ p a l, kids d p = a :: l → getPrevious a d = 0
  root : getParent rootID d = 0 ∧ getNext rootID d = 0 ∧ getPrevious rootID d = 0

end Flo.Spec
