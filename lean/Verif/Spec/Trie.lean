import Verif.Model.Trie
/-!
# What the tries promise
-/
namespace Flo.Spec

/-- The number of nodes. -/
def QTrie.size {α : Type} : QTrie α → Nat
  | .nil => 0
  | .node _ c0 c1 c2 c3 => 1 + size c0 + size c1 + size c2 + size c3

/-- Iterating over a whole trie with enough fuel. -/
def elements {α : Type} (zeroLike : α → Bool) (t : QTrie α) : Out (List α) :=
  forEachTrie zeroLike (6 * QTrie.size t + 1) (QTrie.size t + 1) (newIter t)

/-- A sequence of insertions into an empty string set, with the answers. -/
def strInserts : List Str → QTrie Str → Out (List Bool × QTrie Str)
  | [], t => .ok ([], t)
  | k :: ks, t => do
    let r ← trieStrInsert false k t
    let q ← strInserts ks r.2
    .ok (r.1 :: q.1, q.2)

/-- A sequence of insertions into a set of numbers. -/
def u16Inserts : List UInt16 → QTrie UInt16 → Out (List Bool × QTrie UInt16)
  | [], t => .ok ([], t)
  | k :: ks, t => do
    let r ← trieU16Insert false k t
    let q ← u16Inserts ks r.2
    .ok (r.1 :: q.1, q.2)

/-- A sequence of insertions into a map. -/
def mapInserts : List (Str × UInt16) → QTrie (Str × UInt16) → Out (List UInt16 × QTrie (Str × UInt16))
  | [], t => .ok ([], t)
  | k :: ks, t => do
    let r ← trieMapInsert false k.1 k.2 t
    let q ← mapInserts ks r.2
    .ok (r.1 :: q.1, q.2)

/-- The value given to a key first. -/
def firstValue (ops : List (Str × UInt16)) (k : Str) : Option UInt16 := (ops.find? (fun o => o.1 = k)).map (·.2)

/-- The number of keys an insertion compares with. -/
def visits {α H : Type} (top : H → Nat) (shift : H → H) (same : α → Bool) (h : H) : QTrie α → Nat
  | .nil => 0
  | .node d c0 c1 c2 c3 =>
    if same d then 1
    else 1 + match top h with
      | 0 => visits top shift same (shift h) c0
      | 1 => visits top shift same (shift h) c1
      | 2 => visits top shift same (shift h) c2
      | _ => visits top shift same (shift h) c3

end Flo.Spec
