import Verif.Model.AutoMap
/-!
# The utility hash tries and their iterator

Sources: `util/src/hash/trie/string-set.c`, `util/src/hash/trie/string-uint16-map.c`, `util/src/hash/trie/uint16-set.c`,
`util/include/flo/util/hash/trie/common-iterator.h` (the macros that generate the iterators of these tries and of the name
tables of the DOM).

The three tries have the same shape and the same insertion loop; they differ in the payload, the key comparison, the hash
and its width.  `full` says that the arena has no room left: the allocation then jumps.  Memory for the iterator is
assumed to be available.
-/
namespace Flo

/-- A trie node: four child links and a payload; `nil` is NULL.
`util/include/flo/util/hash/trie/string-set.h:12-15`, `util/include/flo/util/hash/trie/string-uint16-map.h:17-20`, `util/include/flo/util/hash/trie/uint16-set.h:13-16`. -/
inductive QTrie (α : Type) where
  | nil
  | node (data : α) (c0 c1 c2 c3 : QTrie α)
  deriving DecidableEq, Repr

/-- The insertion loops, `util/src/hash/trie/string-set.c:6-14`, `util/src/hash/trie/string-uint16-map.c:8-17`, `util/src/hash/trie/uint16-set.c:6-14`: go down
comparing keys, following child `top hash`; hang a new node on the first NULL link.  The result is the payload found
(`none` if a node was added) and the trie.  `top` is `hash >> 62` or `hash >> 14`, `shift` is `hash <<= 2`. -/
def QTrie.insert {α H : Type} (full : Bool) (top : H → Nat) (shift : H → H) (same : α → Bool) (new : α) (h : H) :
    QTrie α → Out (Option α × QTrie α)
  | .nil => if full then .longjmp else .ok (none, .node new .nil .nil .nil .nil)
  | .node d c0 c1 c2 c3 =>
    if same d then .ok (some d, .node d c0 c1 c2 c3)
    else
      match top h with
      | 0 => do
        let r ← c0.insert full top shift same new (shift h)
        .ok (r.1, .node d r.2 c1 c2 c3)
      | 1 => do
        let r ← c1.insert full top shift same new (shift h)
        .ok (r.1, .node d c0 r.2 c2 c3)
      | 2 => do
        let r ← c2.insert full top shift same new (shift h)
        .ok (r.1, .node d c0 c1 r.2 c3)
      | 3 => do
        let r ← c3.insert full top shift same new (shift h)
        .ok (r.1, .node d c0 c1 c2 r.2)
      | _ => .ub .oobIndex

/-- `hash >> 62`, `util/src/hash/trie/string-set.c:10` -/
def top64 (h : UInt64) : Nat := (h >>> 62).toNat
/-- `hash >> 14` on `uint16_t`, `util/src/hash/trie/uint16-set.c:10` -/
def top16 (h : UInt16) : Nat := (h >>> 14).toNat
/-- `hash <<= 2`, `util/src/hash/trie/string-set.c:6` -/
def shl64 (h : UInt64) : UInt64 := h <<< 2
/-- `hash <<= 2` on `uint16_t`, `util/src/hash/trie/uint16-set.c:6` -/
def shl16 (h : UInt16) : UInt16 := h <<< 2

/-- `flo_trie_insertStringSet`, `util/src/hash/trie/string-set.c:3-15`: true if the string is new. -/
def trieStrInsert (full : Bool) (key : Str) (t : QTrie Str) : Out (Bool × QTrie Str) := do
  let r ← t.insert full top64 shl64 (fun d => strEq key d) key (hashDjb2 key)
  match r.1 with
  | some _ => .ok (false, r.2)
  | none => .ok (true, r.2)

/-- `flo_trie_insertStringUint16Map`, `util/src/hash/trie/string-uint16-map.c:3-18`: the value stored for the key if there is
one, otherwise `true`, that is 1. -/
def trieMapInsert (full : Bool) (key : Str) (value : UInt16) (t : QTrie (Str × UInt16)) : Out (UInt16 × QTrie (Str × UInt16)) := do
  let r ← t.insert full top64 shl64 (fun d => strEq key d.1) (key, value) (hashDjb2 key)
  match r.1 with
  | some d => .ok (d.2, r.2)
  | none => .ok (1, r.2)

/-- `flo_trie_insertUint16Set`, `util/src/hash/trie/uint16-set.c:3-15`. -/
def trieU16Insert (full : Bool) (key : UInt16) (t : QTrie UInt16) : Out (Bool × QTrie UInt16) := do
  let r ← t.insert full top16 shl16 (fun d => key == d) key (hash16 key)
  match r.1 with
  | some _ => .ok (false, r.2)
  | none => .ok (true, r.2)

/-- `FLO_TRIE_ITER_NODE`, `util/include/flo/util/hash/trie/common-iterator.h:17-25`; links are positions in the list of all
iterator nodes allocated so far. -/
structure IterNode (α : Type) where
  next : Option Nat
  set : QTrie α
  index : Nat

/-- `FLO_TRIE_ITERATOR`, `util/include/flo/util/hash/trie/common-iterator.h:27-33`, with the memory of its nodes. -/
structure Iter (α : Type) where
  mem : List (IterNode α)
  head : Option Nat
  free : Option Nat

/-- `FLO_TRIE_NEW_ITERATOR`, `util/include/flo/util/hash/trie/common-iterator.h:46-58`. -/
def newIter {α : Type} (t : QTrie α) : Iter α :=
  match t with
  | .nil => ⟨[], none, none⟩
  | t => ⟨[⟨none, t, 0⟩], some 0, none⟩

/-- `set->child[i]`, `util/include/flo/util/hash/trie/common-iterator.h:74` -/
def QTrie.child? {α : Type} (t : QTrie α) (i : Nat) : Option (QTrie α) :=
  match t with
  | .nil => none
  | .node _ c0 c1 c2 c3 =>
    match i with
    | 0 => some c0
    | 1 => some c1
    | 2 => some c2
    | 3 => some c3
    | _ => none

/-- Putting a finished node on the free list, `util/include/flo/util/hash/trie/common-iterator.h:70-73`. -/
def iterPop {α : Type} (h : Nat) (nd : IterNode α) (it : Iter α) : Iter α :=
  { mem := it.mem.set h { nd with next := it.free, index := nd.index + 1 }, head := nd.next, free := some h }

/-- Taking a node from the free list or a new one and pushing it,
`util/include/flo/util/hash/trie/common-iterator.h:76-86`. -/
def iterPush {α : Type} (h : Nat) (c : QTrie α) (it : Iter α) : Out (Iter α) :=
  match it.free with
  | some g =>
    match it.mem[g]? with
    | some fr => .ok { mem := it.mem.set g ⟨some h, c, 0⟩, head := some g, free := fr.next }
    | none => .ub .nullDeref
  | none => .ok { mem := it.mem ++ [⟨some h, c, 0⟩], head := some it.mem.length, free := none }

/-- `it->head->index++`, `util/include/flo/util/hash/trie/common-iterator.h:65`. -/
def iterTick {α : Type} (h : Nat) (nd : IterNode α) (it : Iter α) : Iter α :=
  { it with mem := it.mem.set h { nd with index := nd.index + 1 } }

/-- The descent into child `index - 1`, `util/include/flo/util/hash/trie/common-iterator.h:74-87`. -/
def iterDown {α : Type} (h : Nat) (c : Option (QTrie α)) (it : Iter α) : Out (Iter α) :=
  match c with
  | none => .ub .oobIndex
  | some .nil => .ok it
  | some (.node d c0 c1 c2 c3) => iterPush h (.node d c0 c1 c2 c3) it

/-- One round of the loop of `FLO_TRIE_NEXT_ITERATOR`, `util/include/flo/util/hash/trie/common-iterator.h:65-87`: a payload to
return, or `none` to go on. -/
def iterStep {α : Type} (h : Nat) (nd : IterNode α) (it : Iter α) : Out (Option α × Iter α) :=
  if nd.index = 0 then
    match nd.set with
    | .node d _ _ _ _ => .ok (some d, iterTick h nd it)
    | .nil => .ub .nullDeref
  else if nd.index = 5 then .ok (none, iterPop h nd it)
  else do
    let it ← iterDown h (nd.set.child? (nd.index - 1)) (iterTick h nd it)
    .ok (none, it)

/-- `FLO_TRIE_NEXT_ITERATOR`, `util/include/flo/util/hash/trie/common-iterator.h:60-90`.  The result is the payload, or `none`
for the zero value returned at the end. -/
def nextIter {α : Type} : Nat → Iter α → Out (Option α × Iter α)
  | 0, _ => .hang
  | f + 1, it =>
    match it.head with
    | none => .ok (none, it)
    | some h =>
      match it.mem[h]? with
      | none => .ub .nullDeref
      | some nd => do
        let r ← iterStep h nd it
        match r.1 with
        | some d => .ok (some d, r.2)
        | none => nextIter f r.2

/-- The `FLO_FOR_EACH_TRIE_…` loops (`util/include/flo/util/hash/trie/string-set.h:24-30`, `util/include/flo/util/hash/trie/string-uint16-map.h:33-40`,
`util/include/flo/util/hash/trie/uint16-set.h:25-31`, `include/flo/html-parser/util/string-auto-uint16-map.h:42-51`): the elements the body sees.  The loop
ends at the first element that looks like the zero value. -/
def forEachTrie {α : Type} (zeroLike : α → Bool) (f : Nat) : Nat → Iter α → Out (List α)
  | 0, _ => .hang
  | n + 1, it => do
    let r ← nextIter f it
    match r.1 with
    | none => .ok []
    | some d =>
      if zeroLike d then .ok []
      else do
        let rest ← forEachTrie zeroLike f n r.2
        .ok (d :: rest)

/-- A name table of the DOM as a trie (`include/flo/html-parser/util/string-auto-uint16-map.h:12-16`). -/
def ATrie.toQ : ATrie → QTrie (Str × Nat)
  | .nil => .nil
  | .node k v c0 c1 c2 c3 => .node (k, v) c0.toQ c1.toQ c2.toQ c3.toQ

end Flo
