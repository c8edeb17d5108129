import Verif.Model.AutoMap
/-!
# What a table of names is (C11)
-/
namespace Flo.Spec

/-- The different strings of a sequence, in the order of their first occurrence. -/
def firstSeen : List Str → List Str → List Str
  | seen, [] => seen
  | seen, k :: ks => firstSeen (if k ∈ seen then seen else seen ++ [k]) ks

/-- Running a sequence of insertions on a name table: the identifiers handed out and the final table. -/
def internAll : List Str → AutoMap → Out (List Nat × AutoMap)
  | [], m => .ok ([], m)
  | k :: ks, m => do
    let r ← m.insert k
    let (ids, m) ← internAll ks r.map
    .ok (r.entryIndex :: ids, m)

end Flo.Spec
