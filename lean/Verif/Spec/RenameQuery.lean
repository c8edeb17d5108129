import Verif.Spec.Rename
import Verif.Spec.PageQuery
/-!
# Renaming bytes of queries (C113)
-/
namespace Flo.Spec

/-- The bytes that are markup in queries only: `# * + , . [ ] ~`. -/
def queryBytes : Str := [35, 42, 43, 44, 46, 91, 93, 126]

/-- A neutral renaming that also keeps the markup of queries, and the two names queries know. -/
structure QueryNeutral (π : UInt8 → UInt8) : Prop extends Neutral π where
  query : ∀ c ∈ queryBytes, π c = c
  cls : (b!"class").map π = b!"class"
  ident : (b!"id").map π = b!"id"

def Cond.mapBytes (π : UInt8 → UInt8) : Cond → Cond
  | .flag a n b => .flag (a.map π) (n.map π) (b.map π)
  | .eq a k b c v e => .eq (a.map π) (k.map π) (b.map π) (c.map π) (v.map π) (e.map π)

def Final.mapBytes (π : UInt8 → UInt8) : Final → Final
  | .cls v => .cls (v.map π)
  | .ident v => .ident (v.map π)

def Compound.mapBytes (π : UInt8 → UInt8) : Compound → Compound
  | .any => .any
  | .mk t cs f => .mk (t.map (·.map π)) (cs.map (Cond.mapBytes π)) (f.map (Final.mapBytes π))

def Comb.mapBytes (π : UInt8 → UInt8) (c : Comb) : Comb := ⟨c.kind, c.before.map π, c.after.map π⟩

def Part.mapBytes (π : UInt8 → UInt8) (p : Part) : Part where
  lead := p.lead.map π
  first := p.first.mapBytes π
  rest := p.rest.map fun r => (r.1.mapBytes π, r.2.mapBytes π)
  trail := p.trail.map π

/-- A query, every byte renamed. -/
def Query.mapBytes (π : UInt8 → UInt8) (q : Query) : Query := ⟨q.head.mapBytes π, q.tail.map (Part.mapBytes π)⟩

end Flo.Spec
