import Verif.Spec.Page
import Verif.Spec.Report
/-!
# Comparing pages (C103)

What the comparison of two documents means in terms of their pages alone.
-/
namespace Flo.Spec

/-- The form in which the page writes elements of this name. -/
def Page.form (pg : Page) (tag : Str) : Option Bool := firstForm pg.forms tag

/-- The comparison does not tell these apart: both the root, the same text, or elements of the same name, in the same form, with
the same boolean attributes, the same keys and the same values (in any order, and values perhaps at other keys). `f` and `g` give
the forms of names on the two pages. -/
inductive Label.Like (f g : Str → Option Bool) : Label → Label → Prop
  | root : Label.Like f g .root .root
  | text (s : Str) : Label.Like f g (.text s) (.text s)
  | elem {tag : Str} {ps qs : List (Str × Str)} {bs cs : List Str} : f tag = g tag → SameNames bs cs →
      SameNames (ps.map Prod.fst) (qs.map Prod.fst) → SameNames (ps.map Prod.snd) (qs.map Prod.snd) →
      Label.Like f g (.elem tag ps bs) (.elem tag qs cs)

mutual
/-- The comparison does not tell these trees apart: the same shape, and `Label.Like` at all places. -/
def PTree.Like (f g : Str → Option Bool) : PTree → PTree → Prop
  | .node _ l ks, .node _ l' ks' => l.Like f g l' ∧ LikeAll f g ks ks'
def LikeAll (f g : Str → Option Bool) : List PTree → List PTree → Prop
  | [], [] => True
  | t :: ts, t' :: ts' => t.Like f g t' ∧ LikeAll f g ts ts'
  | _, _ => False
end

/-- Nodes `x` and `y` are the first, in document order, at which the trees differ: they themselves differ, or they have different
numbers of children, the common ones being alike. -/
inductive PTree.Differ (f g : Str → Option Bool) : PTree → PTree → Nat → Nat → Prop
  | here {n m : Nat} {l l' : Label} {ks ks' : List PTree} : ¬l.Like f g l' → PTree.Differ f g (.node n l ks) (.node m l' ks') n m
  | fewer {n m : Nat} {l l' : Label} {ks ks' more : List PTree} : l.Like f g l' → more ≠ [] → LikeAll f g ks ks' →
      PTree.Differ f g (.node n l ks) (.node m l' (ks' ++ more)) n m
  | more {n m : Nat} {l l' : Label} {ks ks' more : List PTree} : l.Like f g l' → more ≠ [] → LikeAll f g ks ks' →
      PTree.Differ f g (.node n l (ks ++ more)) (.node m l' ks') n m
  | inside {n m x y : Nat} {l l' : Label} {as as' bs bs' : List PTree} {t t' : PTree} : l.Like f g l' → LikeAll f g as as' →
      PTree.Differ f g t t' x y → PTree.Differ f g (.node n l (as ++ t :: bs)) (.node m l' (as' ++ t' :: bs')) x y

/-- An element with more than 64 attributes of one kind. -/
def Label.tooMany : Label → Prop
  | .elem _ ps bs => 64 < bs.length ∨ 64 < ps.length
  | _ => False

end Flo.Spec
