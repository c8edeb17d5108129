import Verif.Model.DupMem
import Verif.Spec.EditMem
/-!
# Several DOMs in one arena (C90, C91, C92)
-/
namespace Flo.Spec

/-- The ten tables of a structure. -/
def tablesOf (M : MDom) : List Arr :=
  [M.nodes, M.fc, M.pc, M.nn, M.boolProps, M.props, M.tagReg, M.boolReg, M.keyReg, M.valReg]

/-- A table without entries has no memory: `FLO_PUSH` will get it some.  This holds of every DOM that was parsed, but not of a duplicate
of a DOM with a table without entries. -/
def Growable (M : MDom) : Prop := ∀ s ∈ tablesOf M, s.len = 0 → s = Arr.empty

/-- What a program does with one arena: it takes memory for itself, parses, duplicates and edits.  `U` is memory of the program: all
that the arena did not own at first, and what the program has taken since.  `l` lists the DOMs: the structure and the DOM meant. -/
inductive World : (Int → Prop) → List (MDom × Dom) → Arena → Prop
  /-- An arena. -/
  | start {a : Arena} : ArenaOK a → 0 < a.beg → World (fun y => y < a.beg ∨ a.stop ≤ y) [] a
  /-- The program takes the memory up to `b` and writes what it likes to free memory. -/
  | used {U : Int → Prop} {l : List (MDom × Dom)} {a : Arena} {b : Int} {mem : Int → UInt8} : World U l a → a.beg ≤ b → b ≤ a.stop →
      SameButFree a a.mem mem → World (fun y => U y ∨ (a.beg ≤ y ∧ y < b)) l { a with beg := b, mem := mem }
  /-- `flo_html_createDom` with a source in the program's memory returns a DOM. -/
  | created {U : Int → Prop} {l : List (MDom × Dom)} {a a' : Arena} {src : MStr} {M : MDom} {d : Dom} : World U l a →
      0 ≤ src.ptr → src.ptr + src.len ≤ 2 ^ 62 → (∀ y, src.ptr ≤ y → y < src.ptr + src.len → U y) →
      createDom (str a.mem src) = .ok (some d) → memCreateDom src a = .ok (some M, a') → World U (l ++ [(M, d)]) a'
  /-- `flo_html_createDom` returns NULL. -/
  | failed {U : Int → Prop} {l : List (MDom × Dom)} {a a' : Arena} {src : MStr} : World U l a →
      0 ≤ src.ptr → src.ptr + src.len ≤ 2 ^ 62 → (∀ y, src.ptr ≤ y → y < src.ptr + src.len → U y) →
      createDom (str a.mem src) = .ok none → memCreateDom src a = .ok (none, a') → World U l a'
  /-- `flo_html_duplicateDom` of DOM number `i`. -/
  | duplicated {U : Int → Prop} {l : List (MDom × Dom)} {a a' : Arena} {i : Nat} {M M' : MDom} {d d' : Dom} : World U l a →
      l[i]? = some (M, d) → duplicateDom d = .ok d' → memDuplicate M a = .ok (M', a') → World U (l ++ [(M', d')]) a'
  /-- An allowed call of a mutating function on DOM number `i`. -/
  | edited {U : Int → Prop} {l : List (MDom × Dom)} {a a' : Arena} {i : Nat} {M M' : MDom} {d d' : Dom} {junk : Nat → Out Bool} {op : MOp}
      {v v' : Nat} : World U l a → l[i]? = some (M, d) → Growable M → Reads junk → op.Given U → Allowed junk d (op.read a.mem) →
      callOp junk (op.read a.mem) d = .ok (v, d') → memCall junk op M a = .ok (v', M', a') → World U (l.set i (M', d')) a'

end Flo.Spec
