import Verif.Model.Hash
/-!
# The string → identifier table of the DOM

Source: `src/dom/util/string-auto-uint16-map.c`,
`include/flo/html-parser/util/string-auto-uint16-map.h`.
-/
namespace Flo

/-- `flo_trie_StringAutoUint16Node` (`include/flo/html-parser/util/string-auto-uint16-map.h:12-16`):
four child links and a (key, value) pair; `nil` is NULL.  Children are owned (the trie is a tree: nodes are
only ever linked once, at `src/dom/util/string-auto-uint16-map.c:20`). -/
inductive ATrie where
  | nil
  | node (key : Str) (value : Nat) (c0 c1 c2 c3 : ATrie)
  deriving DecidableEq, Repr

/-- `flo_trie_StringAutoUint16Map` (`include/flo/html-parser/util/string-auto-uint16-map.h:18-21`). -/
structure AutoMap where
  identity : Nat
  root : ATrie
  deriving DecidableEq, Repr

/-- The zeroed map of a fresh DOM (`src/dom/dom.c:24`, `FLO_ZERO_MEMORY`). -/
def AutoMap.empty : AutoMap := ⟨0, .nil⟩

/-- The subscript written in the source, `hash << 62` (`src/dom/util/string-auto-uint16-map.c:14,37`). -/
def autoIndex (hash : UInt64) : UInt64 := hash <<< 62

/-- The byte offset of `child[hash << 62]` from `child`: 8-byte elements, 64-bit wrap-around
address arithmetic (`src/dom/util/string-auto-uint16-map.c:14,37`). -/
def autoOffset (hash : UInt64) : UInt64 := autoIndex hash * 8

/-- Lookup loop, `src/dom/util/string-auto-uint16-map.c:31-39`.  The loop is recursion on the trie node
`currentNode` points to.  `slot` maps the current hash to the child link followed. -/
def ATrie.find (slot : UInt64 → Nat) (key : Str) (hash : UInt64) : ATrie → Nat
  | .nil => 0
  | .node k v c0 c1 c2 c3 =>
    if strEq key k then v
    else
      match slot hash with
      | 0 => c0.find slot key (hash <<< 2)
      | 1 => c1.find slot key (hash <<< 2)
      | 2 => c2.find slot key (hash <<< 2)
      | _ => c3.find slot key (hash <<< 2)

/-- Insertion loop, `src/dom/util/string-auto-uint16-map.c:5-26`: walk down; on a node with the same key
report its value, otherwise hang a new node (with value `fresh`) on the first NULL link.
Returns `some v` (found) together with the unchanged trie, or `none` together with the extended trie. -/
def ATrie.insert (slot : UInt64 → Nat) (key : Str) (fresh : Nat) (hash : UInt64) :
    ATrie → Option Nat × ATrie
  | .nil => (none, .node key fresh .nil .nil .nil .nil)
  | .node k v c0 c1 c2 c3 =>
    if strEq key k then (some v, .node k v c0 c1 c2 c3)
    else
      match slot hash with
      | 0 => let r := c0.insert slot key fresh (hash <<< 2); (r.1, .node k v r.2 c1 c2 c3)
      | 1 => let r := c1.insert slot key fresh (hash <<< 2); (r.1, .node k v c0 r.2 c2 c3)
      | 2 => let r := c2.insert slot key fresh (hash <<< 2); (r.1, .node k v c0 c1 r.2 c3)
      | _ => let r := c3.insert slot key fresh (hash <<< 2); (r.1, .node k v c0 c1 c2 r.2)

/-- The link actually followed by `child[hash << 62]` (`src/dom/util/string-auto-uint16-map.c:14,37`) under 64-bit wrap-around addressing.  The C standard
makes a subscript ≥ 4 undefined; this is the behaviour of the address computation (see C13). -/
def autoSlot (hash : UInt64) : Nat := (autoOffset hash).toNat / 8

/-- `flo_trie_containsStringAutoUint16Map`, `src/dom/util/string-auto-uint16-map.c:28-40`; 0 = absent. -/
def AutoMap.contains (m : AutoMap) (key : Str) : Nat :=
  m.root.find autoSlot key (hashDjb2 key)

/-- The names that a lookup, or an insertion, compares with `key`, in turn: the arguments of `flo_stringEquals` at
`src/dom/util/string-auto-uint16-map.c:10` and `:34`.  (A counting copy of the loop of `ATrie.find`.) -/
def ATrie.compared (slot : UInt64 → Nat) (key : Str) (hash : UInt64) : ATrie → List Str
  | .nil => []
  | .node k _ c0 c1 c2 c3 =>
    k :: (if strEq key k then []
      else
        match slot hash with
        | 0 => c0.compared slot key (hash <<< 2)
        | 1 => c1.compared slot key (hash <<< 2)
        | 2 => c2.compared slot key (hash <<< 2)
        | _ => c3.compared slot key (hash <<< 2))

/-- The names that looking up `key` in the table compares it with (`src/dom/util/string-auto-uint16-map.c:28-40`). -/
def AutoMap.compared (m : AutoMap) (key : Str) : List Str :=
  m.root.compared autoSlot key (hashDjb2 key)

/-- Result of `flo_trie_insertStringAutoUint16Map` (`flo_NewStringInsert`,
`include/flo/html-parser/util/string-auto-uint16-map.h:23-26`). -/
structure Inserted where
  wasInserted : Bool
  entryIndex : Nat
  map : AutoMap
  deriving DecidableEq, Repr

/-- `flo_trie_insertStringAutoUint16Map`, `src/dom/util/string-auto-uint16-map.c:5-26`.
The new node of the C code gets `++identity`; if `identity` is already `UINT16_MAX` the code jumps. -/
def AutoMap.insert (m : AutoMap) (key : Str) : Out Inserted :=
  match m.root.insert autoSlot key (m.identity + 1) (hashDjb2 key) with
  | (some v, _) => .ok { wasInserted := false, entryIndex := v, map := m }
  | (none, t) =>
    if m.identity = 65535 then .longjmp
    else .ok { wasInserted := true, entryIndex := m.identity + 1, map := ⟨m.identity + 1, t⟩ }

end Flo
