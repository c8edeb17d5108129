import Verif.Model.Path
/-!
# Directories of a path
-/
namespace Flo.Spec

/-- The parts of a path between slashes; `cur` is the part read so far.  Empty parts do not count. -/
def compsFrom : Str → Str → List Str
  | cur, [] => if cur = [] then [] else [cur]
  | cur, c :: s =>
    if c = cSlash then (if cur = [] then compsFrom [] s else cur :: compsFrom [] s) else compsFrom (cur ++ [c]) s

/-- The names on a path: `a/b//c` is `[a, b, c]`. -/
def comps (p : Str) : List Str := compsFrom [] p

/-- A directory of a path: the part before one of its slashes. -/
def IsDirPrefix (path d : Str) : Prop := ∃ rest, path = d ++ cSlash :: rest

/-- A path without `.` and `..`. -/
def Plain (p : Str) : Prop := ∀ w ∈ comps p, w ≠ b!"." ∧ w ≠ b!".."

/-- A file system seen from the working directory: which relative names are directories and which are something else. -/
structure FS where
  dir : List Str → Prop
  other : List Str → Prop

/-- `mkdir` on a plain path: the directory is made if its parent is a directory and nothing of that name exists.  (What
other paths do is left out.) -/
def FS.mkdir (fs : FS) (p : Str) : FS :=
  { fs with dir := fun q => fs.dir q ∨ (Plain p ∧ q = comps p ∧ q ≠ [] ∧ fs.dir q.dropLast ∧ ¬ fs.other q) }

def FS.mkdirs (fs : FS) (ps : List Str) : FS := ps.foldl FS.mkdir fs

end Flo.Spec
