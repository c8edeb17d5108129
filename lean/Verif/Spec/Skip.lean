import Verif.Spec.Query
import Verif.Model.Query
/-!
# What is written behind a class or id (C37)
-/
namespace Flo.Spec

/-- A text that starts with a blank and has none of `= ] . # ,`, for example ` > p` or ` ~ div p[k`. -/
def Skip (w : Str) : Prop :=
  (∃ c l, w = c :: l ∧ (c = 32 ∨ c = 9 ∨ c = 10 ∨ c = 13)) ∧ ∀ c ∈ w, c ≠ 61 ∧ c ≠ 93 ∧ c ≠ 46 ∧ c ≠ 35 ∧ c ≠ 44

/-- Such texts, each followed by a class or id. -/
def moreText (more : List (Str × Final)) : Str := more.flatMap (fun x => x.1 ++ x.2.text)

/-- The condition a class or id stands for, in square brackets: `.a` is `[class=a]`, `#a` is `[id=a]`. -/
def Final.cond : Final → Cond
  | .cls v => .eq [] b!"class" [] [] v []
  | .ident v => .eq [] b!"id" [] [] v []

/-- A compound with its class or id, and `more` of them, as conditions. -/
def Compound.both (more : List Final) : Compound → Compound
  | .any => .any
  | .mk t cs fin => .mk t (cs ++ (fin.toList ++ more).map Final.cond) none

/-- The last compound changed. -/
def restLast (g : Compound → Compound) : List (Comb × Compound) → List (Comb × Compound)
  | [] => []
  | [(k, c)] => [(k, g c)]
  | a :: b :: r => a :: restLast g (b :: r)

def Part.mapLast (g : Compound → Compound) (p : Part) : Part :=
  match p.rest with
  | [] => { p with first := g p.first }
  | r => { p with rest := restLast g r }

/-- The last compound has a class or id. -/
def Part.endsInFinal (p : Part) : Prop := ∃ t cs f, p.compounds.getLast? = some (.mk t cs (some f))

/-- Two queries have the same answer: the same error, or the same nodes. -/
def SameAnswer (pun : Nat → Nat) (d : Dom) (s s' : Str) : Prop :=
  (∃ st, querySelectorAll pun s d = .ok (.fail st) ∧ querySelectorAll pun s' d = .ok (.fail st)) ∨
  ∃ L L', querySelectorAll pun s d = .ok (.go L) ∧ querySelectorAll pun s' d = .ok (.go L') ∧ L.Perm L'

end Flo.Spec
