import Verif.Model.Files
import Verif.Spec.Strings
/-!
# Files (C69, C70, C71)
-/
namespace Flo.Spec

/-- A regular file with these contents, opened for reading. -/
def regularFile (contents : Str) : OpenFile := ⟨contents.length, contents⟩

/-- Only the free part of the arena has been written, and the arena has not shrunk below its old position. -/
def OnlyFreeChanged (a a' : Arena) : Prop :=
  a.beg ≤ a'.beg ∧ a'.beg ≤ a'.stop ∧ a'.stop = a.stop ∧ ∀ x, x < a.beg ∨ a.stop ≤ x → a'.mem x = a.mem x

/-- The path is a C string: it has no zero byte, and one follows it in memory. -/
def Terminated (path behind : Str) : Prop := 0 ∉ path ∧ behind.head? = some 0

end Flo.Spec
