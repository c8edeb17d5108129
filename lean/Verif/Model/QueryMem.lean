import Verif.Model.Query
import Verif.Model.Arena
/-!
# Queries with their sets in the arena's memory

Sources: `util/src/hash/msi/common.c`, `util/src/hash/msi/uint16-set.c`, `src/dom/query/msi-uint16.c`,
`src/dom/query/query-util.c:64-158`, `src/dom/query/query.c:88-366`.

`Model/Query.lean` keeps the sets of a query as values.  Here they are blocks of bytes in the arena: every access goes through an
address, sets move when they grow, the results are built in a copy of the arena structure that shares the arena's memory and
are then copied to the front of it.  The DOM is a value (it is not in the free part of the arena).  Numbers are little endian.
-/
namespace Flo

/-- Reading a `uint16_t`, `util/src/hash/msi/uint16-set.c:6`. -/
def read16 (mem : Int → UInt8) (p : Int) : Nat := (mem p).toNat + 256 * (mem (p + 1)).toNat

/-- Storing a `uint16_t`, `util/src/hash/msi/uint16-set.c:8`. -/
def write16 (p : Int) (v : Nat) (mem : Int → UInt8) : Int → UInt8 :=
  memWrite p [UInt8.ofNat v, UInt8.ofNat (v / 256)] mem

/-- `flo_msi_Uint16`, `util/include/flo/util/hash/msi/uint16-set.h:12`: the address of the slots, the exponent and the counter. -/
structure MSet where
  buf : Int
  exp : Nat
  len : Nat
  deriving DecidableEq, Repr

/-- `FLO_NEW_MSI_SET`, `util/include/flo/util/hash/msi/common.h:55-61`, with `flo_msi_newSet` on a NULL buffer,
`util/src/hash/msi/common.c:7-21`. -/
def memNewSet (exp : Nat) (a : Arena) : Out (MSet × Arena) :=
  if exp ≥ 31 then .longjmp
  else do
    let (p, a) ← arenaAlloc 2 2 (2 ^ exp) true false a
    match p with
    | some p => .ok (⟨p, exp, 0⟩, a)
    | none => .ub .nullDeref

/-- `index->buf[i]`, `util/src/hash/msi/uint16-set.c:6`. -/
def memSlot (s : MSet) (i : Nat) (mem : Int → UInt8) : Out Nat :=
  if i < 2 ^ s.exp then .ok (read16 mem (s.buf + 2 * i)) else .ub .oobIndex

/-- The loop of `flo_msi_insertUint16`, `util/src/hash/msi/uint16-set.c:4-13`. -/
def memInsertLoop (v : Nat) (hash : UInt64) : Nat → UInt32 → MSet → Arena → Out (MSet × Arena)
  | 0, _, _, _ => .hang
  | f + 1, i, s, a => do
    let i := indexLookup hash s.exp i
    let x ← memSlot s i.toNat a.mem
    if x = 0 then .ok ({ s with len := s.len + 1 }, { a with mem := write16 (s.buf + 2 * i.toNat) v a.mem })
    else if x = v then .ok (s, a)
    else memInsertLoop v hash f i s a

/-- `flo_msi_insertUint16(v, flo_hash16_xm3(v), s)`, `util/src/hash/msi/uint16-set.c:3-14`. -/
def memInsertSlot (v : Nat) (s : MSet) (a : Arena) : Out (MSet × Arena) :=
  memInsertLoop v (hashID v) (2 ^ s.exp + 1) (hashID v).toUInt32 s a

/-- The loop of `rehashIndex`, `src/dom/query/msi-uint16.c:7-12`, with `k` slots to go from slot `i`. -/
def memRehashLoop (old : MSet) : Nat → Nat → MSet → Arena → Out (MSet × Arena)
  | 0, _, s, a => .ok (s, a)
  | k + 1, i, s, a => do
    let v ← memSlot old i a.mem
    if v ≠ 0 then do
      let (s, a) ← memInsertSlot v s a
      memRehashLoop old k (i + 1) s a
    else memRehashLoop old k (i + 1) s a

/-- The growing step of `flo_msi_html_uint16Insert`, `src/dom/query/msi-uint16.c:17-23`. -/
def memGrowSet (s : MSet) (a : Arena) : Out (MSet × Arena) :=
  if s.len ≥ 2 ^ s.exp / 2 then do
    let (n, a) ← memNewSet (s.exp + 1) a
    memRehashLoop s (2 ^ s.exp) 0 n a
  else .ok (s, a)

/-- `flo_msi_html_uint16Insert`, `src/dom/query/msi-uint16.c:15-25`. -/
def memInsert (v : Nat) (s : MSet) (a : Arena) : Out (MSet × Arena) := do
  let (s, a) ← memGrowSet s a
  memInsertSlot v s a

/-- `flo_msi_html_resetUint16`, `src/dom/query/msi-uint16.c:27-32`. -/
def memReset (s : MSet) (a : Arena) : MSet × Arena :=
  ({ s with len := 0 }, { a with mem := memZero s.buf (2 * 2 ^ s.exp) a.mem })

/-- `memcpy` on blocks that must not overlap, as called in `src/dom/query/msi-uint16.c:49-50` and `src/dom/query/query.c:329-331`. -/
def memcpyC (dst src n : Int) (mem : Int → UInt8) : Out (Int → UInt8) :=
  if dst < src + n ∧ src < dst + n then .ub .overlap else .ok (memCopy dst src n mem)

/-- `flo_msi_html_copyUint16`, `src/dom/query/msi-uint16.c:46-53`. -/
def memCopySet (s : MSet) (a : Arena) : Out (MSet × Arena) := do
  let (c, a) ← memNewSet s.exp a
  let mem ← memcpyC c.buf s.buf (2 * 2 ^ s.exp) a.mem
  .ok ({ c with len := s.len }, { a with mem := mem })

/-- The loop of `flo_msi_containsUint16`, `util/src/hash/msi/uint16-set.c:18-25`. -/
def memContainsLoop (v : Nat) (hash : UInt64) (s : MSet) (mem : Int → UInt8) : Nat → UInt32 → Out Bool
  | 0, _ => .hang
  | f + 1, i => do
    let i := indexLookup hash s.exp i
    let x ← memSlot s i.toNat mem
    if x = 0 then .ok false
    else if x = v then .ok true
    else memContainsLoop v hash s mem f i

/-- `flo_msi_containsUint16(v, flo_hash16_xm3(v), s)`, `util/src/hash/msi/uint16-set.c:16-26`. -/
def memContains (v : Nat) (s : MSet) (mem : Int → UInt8) : Out Bool :=
  memContainsLoop v (hashID v) s mem (2 ^ s.exp + 1) (hashID v).toUInt32

/-- The loop of `flo_msi_html_toArray`, `src/dom/query/msi-uint16.c:39-41`, with `k` slots to go from slot `i`; `j` is
`resultIndex`, `n` the number of cells of the array at `p`. -/
def memToArrayLoop (s : MSet) (p : Int) (n : Nat) : Nat → Nat → Nat → Arena → Out Arena
  | 0, _, _, a => .ok a
  | k + 1, i, j, a => do
    let v ← memSlot s i a.mem
    if v ≠ 0 then
      if j < n then memToArrayLoop s p n k (i + 1) (j + 1) { a with mem := write16 (p + 2 * j) v a.mem }
      else .ub .oobIndex
    else memToArrayLoop s p n k (i + 1) j a

/-- `flo_msi_html_toArray`, `src/dom/query/msi-uint16.c:34-44`: address and length. -/
def memToArray (s : MSet) (a : Arena) : Out (Int × Arena) := do
  let (p, a) ← arenaAlloc 2 2 s.len false false a
  match p with
  | some p => do
    let a ← memToArrayLoop s p s.len (2 ^ s.exp) 0 0 a
    .ok (p, a)
  | none => .ub .nullDeref

/-! ## `src/dom/query/query-util.c` -/

/-- The loop of `flo_html_getNodesWithoutflo_html_Combinator`, `src/dom/query/query-util.c:68-73`. -/
def memAllNodesLoop (pun : Nat → Nat) (fs : List Filter) (d : Dom) : List Nat → MSet → Arena → Out (MSet × Arena)
  | [], s, a => .ok (s, a)
  | i :: is, s, a => do
    let keep ← filterNode pun i d fs
    let (s, a) ← (if keep then memInsert i s a else .ok (s, a))
    memAllNodesLoop pun fs d is s a

/-- The sibling loop of `flo_html_getFilteredAdjacents`, `src/dom/query/query-util.c:91-98`. -/
def memSiblingsLoop (pun : Nat → Nat) (fs : List Filter) (d : Dom) :
    Nat → Option Nat → Nat → MSet → Arena → Out (MSet × Arena)
  | 0, _, _, _, _ => .hang
  | f + 1, k, next, s, a =>
    if k ≠ some 0 ∧ next > 0 then do
      let keep ← filterNode pun next d fs
      let (s, a) ← (if keep then memInsert next s a else .ok (s, a))
      memSiblingsLoop pun fs d f (k.map (· - 1)) (getNext next d) s a
    else .ok (s, a)

/-- The loop over the set in `flo_html_getFilteredAdjacents`, `src/dom/query/query-util.c:86-99`, with `c` slots of `set` to go
from slot `i`. -/
def memAdjacentsLoop (pun : Nat → Nat) (fs : List Filter) (d : Dom) (k : Option Nat) (set : MSet) :
    Nat → Nat → MSet → Arena → Out (MSet × Arena)
  | 0, _, s, a => .ok (s, a)
  | c + 1, i, s, a => do
    let v ← memSlot set i a.mem
    if v ≠ 0 then do
      let (s, a) ← memSiblingsLoop pun fs d (d.nn.length + 2) k (getNext v d) s a
      memAdjacentsLoop pun fs d k set c (i + 1) s a
    else memAdjacentsLoop pun fs d k set c (i + 1) s a

/-- `flo_html_getFilteredAdjacents`, `src/dom/query/query-util.c:79-106`. -/
def memFilteredAdjacents (pun : Nat → Nat) (fs : List Filter) (d : Dom) (k : Option Nat) (set : MSet) (a : Arena) :
    Out (MSet × Arena) := do
  let (n, a) ← memNewSet 7 a
  memAdjacentsLoop pun fs d k set (2 ^ set.exp) 0 n a

/-- One pass over `parentChilds` in `flo_html_getFilteredDescendants`, `src/dom/query/query-util.c:124-140`. -/
def memDescPass (pun : Nat → Nat) (fs : List Filter) (d : Dom) (filled : MSet) :
    List Row → MSet → MSet → Arena → Out (MSet × MSet × Arena)
  | [], toFill, set, a => .ok (toFill, set, a)
  | (p, c) :: rows, toFill, set, a => do
    let node ← d.node c
    let hit ← (if node.type = .document then memContains p filled a.mem else .ok false)
    if hit then do
      let (toFill, a) ← memInsert c toFill a
      let keep ← filterNode pun c d fs
      let (set, a) ← (if keep then memInsert c set a else .ok (set, a))
      memDescPass pun fs d filled rows toFill set a
    else memDescPass pun fs d filled rows toFill set a

/-- The level loop of `flo_html_getFilteredDescendants`, `src/dom/query/query-util.c:123-155`. -/
def memDescLoop (pun : Nat → Nat) (fs : List Filter) (d : Dom) :
    Nat → Option Nat → MSet → MSet → MSet → Arena → Out (MSet × Arena)
  | 0, _, _, _, _, _ => .hang
  | f + 1, k, filled, toFill, set, a =>
    if k ≠ some 0 ∧ filled.len > 0 then do
      let (toFill, set, a) ← memDescPass pun fs d filled d.pc toFill set a
      let (filled, a) := memReset filled a
      memDescLoop pun fs d f (k.map (· - 1)) toFill filled set a
    else .ok (set, a)

/-- `flo_html_getFilteredDescendants`, `src/dom/query/query-util.c:109-158`. -/
def memFilteredDescendants (pun : Nat → Nat) (fs : List Filter) (d : Dom) (k : Option Nat) (set : MSet) (a : Arena) :
    Out (MSet × Arena) := do
  let (first, a) ← memCopySet set a
  let (set, a) := memReset set a
  let (second, a) ← memNewSet first.exp a
  memDescLoop pun fs d (d.nodes.length + 2) k first second set a

/-- The first switch ("Do filtering"), `src/dom/query/query.c:212-253`. -/
def memApplyCombinator (pun : Nat → Nat) (c : Combinator) (fs : List Filter) (d : Dom) (set : MSet) (a : Arena) :
    Out (MSet × Arena) :=
  match c with
  | .none => memAllNodesLoop pun fs d (List.range d.nodes.length) set a
  | .adjacent => memFilteredAdjacents pun fs d (some 1) set a
  | .child => memFilteredDescendants pun fs d (some 1) set a
  | .general => memFilteredAdjacents pun fs d none set a
  | .descendant => memFilteredDescendants pun fs d none set a

/-! ## `src/dom/query/query.c` -/

/-- The main loop of `getQueryResults`, `src/dom/query/query.c:102-284`.  The arena is also returned with a failure, because
its memory is shared with the caller's. -/
def memQueryLoop (pun : Nat → Nat) (s : Str) (d : Dom) :
    Nat → Nat → Combinator → MSet → Arena → Out (QRes MSet × Arena)
  | 0, _, _, _, _ => .hang
  | f + 1, idx, comb, set, a =>
    if idx < s.length then do
      match ← leadFilter s d idx with
      | .fail st => .ok (.fail st, a)
      | .go (idx, fs) =>
        match ← attrFilters s d (s.length + 1) idx fs with
        | .fail st => .ok (.fail st, a)
        | .go (idx, fs) =>
          if fs.length < 1 then .ok (.fail .invalidElement, a)
          else do
            let (set, a) ← memApplyCombinator pun comb fs d set a
            let (idx, c) := swoop (s.drop idx) idx cSp
            memQueryLoop pun s d f idx (combinatorOf c) set a
    else .ok (.go set, a)

/-- `getQueryResults`, `src/dom/query/query.c:88-287`. -/
def memGetQueryResults (pun : Nat → Nat) (s : Str) (d : Dom) (set : MSet) (a : Arena) : Out (QRes MSet × Arena) :=
  memQueryLoop pun s d (s.length + 1)
    (scanUntil (fun ch => isElementStartChar ch || ch == 91 || ch == 42) s 0) .none set a

/-- The loop that adds a part's results, `src/dom/query/query.c:315-318`, with `c` slots of `set` to go from slot `i`. -/
def memUnionLoop (set : MSet) : Nat → Nat → MSet → Arena → Out (MSet × Arena)
  | 0, _, s, a => .ok (s, a)
  | c + 1, i, s, a => do
    let v ← memSlot set i a.mem
    if v ≠ 0 then do
      let (s, a) ← memInsert v s a
      memUnionLoop set c (i + 1) s a
    else memUnionLoop set c (i + 1) s a

/-- The loop of `flo_html_querySelectorAll` over the comma separated parts, `src/dom/query/query.c:303-324`. -/
def memSelectLoop (pun : Nat → Nat) (css : Str) (d : Dom) :
    Nat → Nat → MSet → MSet → Arena → Out (QRes MSet × Arena)
  | 0, _, _, _, _ => .hang
  | f + 1, start, set, results, a =>
    if start < css.length then do
      let part := (css.drop start).takeWhile (· != 44)
      match ← memGetQueryResults pun part d set a with
      | (.fail st, a) => .ok (.fail st, a)
      | (.go set, a) => do
        let (results, a) ← memUnionLoop set (2 ^ set.exp) 0 results a
        let (set, a) := memReset set a
        memSelectLoop pun css d f (start + part.length + 1) set results a
    else .ok (.go results, a)

/-- `flo_html_querySelectorAll`, `src/dom/query/query.c:289-336`: `scratch` starts as a copy of `*perm` (line 294); both use the
same memory.  On success the address and length of the array, on failure the status; and `*perm` with its memory. -/
def memQuerySelectorAll (pun : Nat → Nat) (css : Str) (d : Dom) (perm : Arena) : Out (QRes (Int × Nat) × Arena) := do
  let (results, scratch) ← memNewSet 7 perm
  let (set, scratch) ← memNewSet 7 scratch
  match ← memSelectLoop pun css d (css.length + 1) 0 set results scratch with
  | (.fail st, scratch) => .ok (.fail st, { perm with mem := scratch.mem })
  | (.go results, scratch) => do
    let (src, scratch) ← memToArray results scratch
    let (p, perm) ← arenaAlloc 2 2 results.len false false { perm with mem := scratch.mem }
    match p with
    | some p => do
      let mem ← memcpyC p src (2 * results.len) perm.mem
      .ok (.go (p, results.len), { perm with mem := mem })
    | none => .ub .nullDeref

/-- Looking a node up in the result array, `src/dom/query/query.c:355-360`, with `k` cells to go from cell `i`. -/
def memFindLoop (buf : Int) (cur : Nat) (mem : Int → UInt8) : Nat → Nat → Bool
  | 0, _ => false
  | k + 1, i => if read16 mem (buf + 2 * i) = cur then true else memFindLoop buf cur mem k (i + 1)

/-- The loop of `flo_html_querySelector`, `src/dom/query/query.c:353-363`. -/
def memSelectorLoop (d : Dom) (buf : Int) (len : Nat) (mem : Int → UInt8) : Nat → Nat → Out (Option Nat)
  | 0, _ => .hang
  | f + 1, cur =>
    if cur ≠ 0 then
      if memFindLoop buf cur mem len 0 then .ok (some cur)
      else do
        let next ← traverseDom cur d
        memSelectorLoop d buf len mem f next
    else .ok none

/-- `flo_html_querySelector`, `src/dom/query/query.c:338-366`.  The arena is passed by value; the structure allocated first
(16 bytes) holds the array's address and length; the stores into it are not modelled.  The second component is the memory afterwards. -/
def memQuerySelector (pun : Nat → Nat) (css : Str) (d : Dom) (scratch : Arena) : Out (QRes (Option Nat) × (Int → UInt8)) := do
  let (p, a) ← arenaAlloc 16 8 1 false false scratch
  match p with
  | none => .ub .nullDeref
  | some _ =>
    match ← memQuerySelectorAll pun css d a with
    | (.fail st, a) => .ok (.fail st, a.mem)
    | (.go (buf, len), a) =>
      if len = 0 then .ok (.go (some 0), a.mem)
      else do
        let r ← memSelectorLoop d buf len a.mem (d.nodes.length + 1) rootID
        .ok (.go r, a.mem)

end Flo
