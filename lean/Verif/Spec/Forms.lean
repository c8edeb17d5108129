import Verif.Spec.Source
import Verif.Spec.Print
import Verif.Spec.History
/-!
# How the elements of a name are written (C74)

An element is written with an end tag ("paired", `true`) or without (`false`).  The DOM keeps one form per name.
-/
namespace Flo.Spec

/-- The first form in a list of uses. -/
def firstForm (us : List (Str × Bool)) (tag : Str) : Option Bool := (us.find? (fun u => u.1 == tag)).map (·.2)

/-- The form a DOM keeps for a name, if the name has been used. -/
def formOf (d : Dom) (tag : Str) : Option Bool := firstForm (d.tagReg.drop 1) tag

mutual
/-- The uses of names in a source, in document order. -/
def Src.forms : Src → List (Str × Bool)
  | .text _ _ => []
  | .single tag _ _ _ => [(tag, false)]
  | .paired tag _ _ _ ks _ => (tag, true) :: ks.forms
def Srcs.forms : Srcs → List (Str × Bool)
  | .nil => []
  | .cons t _ rest => t.forms ++ rest.forms
end

/-- The names an operation uses: the functions that make or rename an element use its name in the form given, the
functions taking HTML use the names of the fragment (stated for fragments an author would write), the others none. -/
inductive OpUses : Op → List (Str × Bool) → Prop
  | attr {op : AttrOp} : OpUses (.attr op) []
  | addText {n : Nat} {t : Str} {a : Bool} : OpUses (.addText n t a) []
  | setTag {t : Str} {n : Nat} {p : Bool} : OpUses (.setTag t n p) [(t, p)]
  | setText {n : Nat} {t : Str} : OpUses (.setText n t) []
  | removeNode {n : Nat} : OpUses (.removeNode n) []
  | removeChildren {n : Nat} : OpUses (.removeChildren n) []
  | appendDoc {p : Nat} {doc : DocNode} : OpUses (.appendDoc p doc) [(doc.tag, doc.isPaired)]
  | prependDoc {p : Nat} {doc : DocNode} : OpUses (.prependDoc p doc) [(doc.tag, doc.isPaired)]
  | replaceDoc {n : Nat} {doc : DocNode} : OpUses (.replaceDoc n doc) [(doc.tag, doc.isPaired)]
  | appendText {p : Nat} {t : Str} : OpUses (.appendText p t) []
  | prependText {p : Nat} {t : Str} : OpUses (.prependText p t) []
  | replaceText {n : Nat} {t : Str} : OpUses (.replaceText n t) []
  | appendHTML {p : Nat} {lead : Str} {ks : Srcs} (hl : Blank lead) (hk : ks.Clean) (hd : ks.depth ≤ 256) :
      OpUses (.appendHTML p (lead ++ ks.render)) ks.forms
  | prependHTML {p : Nat} {lead : Str} {ks : Srcs} (hl : Blank lead) (hk : ks.Clean) (hd : ks.depth ≤ 256) :
      OpUses (.prependHTML p (lead ++ ks.render)) ks.forms
  | replaceHTML {n : Nat} {lead : Str} {ks : Srcs} (hl : Blank lead) (hk : ks.Clean) (hd : ks.depth ≤ 256) :
      OpUses (.replaceHTML n (lead ++ ks.render)) ks.forms

end Flo.Spec
