import Verif.Model.AutoMap
/-!
# How many names a lookup compares (C111)
-/
namespace Flo.Spec

/-- What a search of the list `names` for `k` looks at: the names before `k`, and `k` if it is there. -/
def searched (k : Str) : List Str → List Str
  | [] => []
  | s :: names => if k = s then [s] else s :: searched k names

/-- What a tree with four links per node, chosen by two bits of a 64-bit hash each, promises: a lookup compares the name with at
most 32 names that have another hash. -/
def FewCompared (m : AutoMap) (names : List Str) : Prop :=
  ∀ k, (m.compared k).length ≤ 32 + (names.filter (fun s => hashDjb2 s == hashDjb2 k)).length

end Flo.Spec
