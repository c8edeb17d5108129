import Verif.Spec.PageRefuse
/-!
# Documents that show the same page (C114)
-/
namespace Flo.Spec

/-- Values of attributes are only replaced on elements, not on texts or the root. -/
def Op.SetsElem (pg : Page) (op : Op) : Prop := ∀ n k v, op = .attr (.set n k v) → ∃ tag ps bs, (n, .elem tag ps bs) ∈ pg.root.entries

def Page.SetsElems : List (Op × (Nat → Bool)) → Page → Prop
  | [], _ => True
  | o :: ops, pg => o.1.SetsElem pg ∧ Page.SetsElems ops (pg.call o.2 o.1)

end Flo.Spec
