import Verif.Model.Parser
import Verif.Model.Arena
/-!
# The DOM and the parser in the arena's memory

Sources: `src/parser.c`, `src/dom/dom.c`, `src/dom/dom-util.c:13-26`, `src/dom/modification.c:19-66,127-138`,
`src/dom/util/string-auto-uint16-map.c`, `util/include/flo/util/array.h`, `util/include/flo/util/raw-data.h`.

`Model/Dom.lean` keeps the tables of a DOM as lists and names and texts as values.  Here the tables are dynamic arrays in an arena,
the names are pointers into the source text, the texts are buffers in the arena, and the maps from names to identifiers are nodes
linked by pointers.  Numbers are little endian, pointers have 8 bytes; sizes and alignments are those of the System V ABI for x86-64.
The members of `flo_html_Dom` and of the parser's local variables are kept in records (the allocation of the structure itself is
modelled); padding and the union of a node that is not yet written are 0.
-/
namespace Flo

/-- `flo_String`, `util/include/flo/util/text/string.h:37-40`: address and length. -/
structure MStr where
  ptr : Int
  len : Nat
  deriving DecidableEq, Repr

/-- The bytes a `flo_String` designates, `util/include/flo/util/text/string.h:37-40`. -/
def MStr.read (mem : Int → UInt8) (r : MStr) : Str := (List.range r.len).map (fun i : Nat => mem (r.ptr + (i : Int)))

/-- A number of `n` bytes, low byte first: the representation of the members of `include/flo/html-parser/node/node.h:35-42`. -/
def leBytes : Nat → Nat → List UInt8
  | 0, _ => []
  | n + 1, v => UInt8.ofNat v :: leBytes n (v / 256)

/-- Reading a number of `n` bytes, e.g. a member of `include/flo/html-parser/node/node.h:35-42`. -/
def readLE (mem : Int → UInt8) (p : Int) : Nat → Nat
  | 0 => 0
  | n + 1 => (mem p).toNat + 256 * readLE mem (p + 1) n

/-- Reading a `flo_String` object at `p`, e.g. `include/flo/html-parser/node/tag-registration.h:11`. -/
def loadStr (mem : Int → UInt8) (p : Int) : MStr := ⟨(readLE mem p 8 : Nat), readLE mem (p + 8) 8⟩

/-- The bytes of a `flo_String` object, `util/include/flo/util/text/string.h:37-40`. -/
def encStr (r : MStr) : List UInt8 := leBytes 8 r.ptr.toNat ++ leBytes 8 r.len

/-- The bytes of a row of two identifiers, e.g. `include/flo/html-parser/node/parent-child.h:10-13`. -/
def encRow (r : Row) : List UInt8 := leBytes 2 r.1 ++ leBytes 2 r.2

/-- The bytes of a `flo_html_Property`, `include/flo/html-parser/node/property.h:10-14`. -/
def encProp (r : PropRow) : List UInt8 := leBytes 2 r.node ++ (leBytes 2 r.key ++ leBytes 2 r.value)

/-- The values of `flo_html_NodeType`, `include/flo/html-parser/node/node.h:14-21`. -/
def NodeType.code : NodeType → Nat
  | .root => 0
  | .document => 1
  | .text => 2
  | .removed => 3
  | .error => 4

/-- The bytes of a new `flo_html_Node`, `src/dom/dom-util.c:19-23`: identifier, type, and the union. -/
def encNode (id : Nat) (t : NodeType) : List UInt8 :=
  leBytes 2 id ++ ([0, 0] ++ (leBytes 4 t.code ++ leBytes 16 0))

/-- The bytes of a `flo_html_TagRegistration`, `include/flo/html-parser/node/tag-registration.h:10-13`. -/
def encTag (r : MStr) (paired : Bool) : List UInt8 := encStr r ++ leBytes 8 (if paired then 1 else 0)

/-- `flo_trie_StringAutoUint16Map`, `include/flo/html-parser/util/string-auto-uint16-map.h:18-21`; 0 is the NULL pointer. -/
structure MMap where
  identity : Nat
  root : Int
  deriving DecidableEq, Repr

/-- `flo_html_Dom`, `include/flo/html-parser/dom/dom.h:35-57`. -/
structure MDom where
  nodes : Arr
  fc : Arr
  pc : Arr
  nn : Arr
  boolProps : Arr
  props : Arr
  tagReg : Arr
  boolReg : Arr
  keyReg : Arr
  valReg : Arr
  tagMap : MMap
  boolMap : MMap
  keyMap : MMap
  valMap : MMap
  deriving DecidableEq, Repr

/-- The zeroed structure of `src/dom/dom.c:24`. -/
def MDom.zero : MDom :=
  ⟨.empty, .empty, .empty, .empty, .empty, .empty, .empty, .empty, .empty, .empty, ⟨0, 0⟩, ⟨0, 0⟩, ⟨0, 0⟩, ⟨0, 0⟩⟩

/-- Where `currentNode` points: at the map's own member or at a link of a node, `src/dom/util/string-auto-uint16-map.c:7,14`. -/
inductive MLink where
  | root
  | child (p : Int)
  deriving DecidableEq, Repr

/-- The loop of `flo_trie_insertStringAutoUint16Map`, `src/dom/util/string-auto-uint16-map.c:8-15`: the value found or the link to
write.  `node` is `*currentNode`.  A node is 4 links of 8 bytes, the key at 32, the value at 48. -/
def memTrieLoop (mem : Int → UInt8) (key : Str) : Nat → UInt64 → Int → MLink → Out (Nat ⊕ MLink)
  | 0, _, _, _ => .hang
  | f + 1, hash, node, link =>
    if node = 0 then .ok (.inr link)
    else if strEq key ((loadStr mem (node + 32)).read mem) then .ok (.inl (readLE mem (node + 48) 2))
    else
      let l := node + ((autoOffset hash).toNat : Int)
      memTrieLoop mem key f (hash <<< 2) (readLE mem l 8 : Nat) (.child l)

/-- Result of `memInsertMap`: `flo_NewStringInsert` with the new map and arena
(`include/flo/html-parser/util/string-auto-uint16-map.h:23-26`). -/
structure MInserted where
  wasInserted : Bool
  entryIndex : Nat
  map : MMap
  arena : Arena

/-- `*currentNode = p`, `src/dom/util/string-auto-uint16-map.c:20`, for a link in memory. -/
def linkWrite (link : MLink) (p : Int) (mem : Int → UInt8) : Int → UInt8 :=
  match link with
  | .root => mem
  | .child l => memWrite l (leBytes 8 p.toNat) mem

/-- `*currentNode = p`, `src/dom/util/string-auto-uint16-map.c:20`, for the map's own link. -/
def linkRoot (link : MLink) (p root : Int) : Int :=
  match link with
  | .root => p
  | .child _ => root

/-- `flo_trie_insertStringAutoUint16Map`, `src/dom/util/string-auto-uint16-map.c:5-26`. -/
def memInsertMap (key : MStr) (m : MMap) (a : Arena) : Out MInserted := do
  let k := key.read a.mem
  let r ← memTrieLoop a.mem k (m.identity + 1) (hashDjb2 k) m.root .root
  match r with
  | .inl v => .ok ⟨false, v, m, a⟩
  | .inr link =>
    if m.identity = 65535 then .longjmp
    else do
      let (p, a) ← arenaAlloc 56 8 1 true false a
      match p with
      | none => .ub .nullDeref
      | some p =>
        let mem := linkWrite link p a.mem
        let mem := memWrite (p + 32) (encStr key) mem
        let mem := memWrite (p + 48) (leBytes 2 (m.identity + 1)) mem
        .ok ⟨true, m.identity + 1, ⟨m.identity + 1, linkRoot link p m.root⟩, { a with mem := mem }⟩

/-- `flo_trie_containsStringAutoUint16Map`, `src/dom/util/string-auto-uint16-map.c:28-40`. -/
def memLookup (key : MStr) (m : MMap) (mem : Int → UInt8) : Out Nat := do
  let k := key.read mem
  let r ← memTrieLoop mem k (m.identity + 1) (hashDjb2 k) m.root .root
  match r with
  | .inl v => .ok v
  | .inr _ => .ok 0

/-- `*FLO_PUSH(&dom->nodes, perm) = node`, `src/dom/dom-util.c:23`. -/
def pushNode (id : Nat) (t : NodeType) (M : MDom) (a : Arena) : Out (MDom × Arena) := do
  let (s, a) ← arrPushElem 24 8 false (encNode id t) M.nodes a
  .ok ({ M with nodes := s }, a)

/-- `*FLO_PUSH(&dom->parentFirstChilds, perm) = row`, `src/parser.c:50`. -/
def pushFc (r : Row) (M : MDom) (a : Arena) : Out (MDom × Arena) := do
  let (s, a) ← arrPushElem 4 2 false (encRow r) M.fc a
  .ok ({ M with fc := s }, a)

/-- `*FLO_PUSH(&dom->parentChilds, perm) = row`, `src/parser.c:47-48`. -/
def pushPc (r : Row) (M : MDom) (a : Arena) : Out (MDom × Arena) := do
  let (s, a) ← arrPushElem 4 2 false (encRow r) M.pc a
  .ok ({ M with pc := s }, a)

/-- `*FLO_PUSH(&dom->nextNodes, perm) = row`, `src/parser.c:42-43`. -/
def pushNn (r : Row) (M : MDom) (a : Arena) : Out (MDom × Arena) := do
  let (s, a) ← arrPushElem 4 2 false (encRow r) M.nn a
  .ok ({ M with nn := s }, a)

/-- `*FLO_PUSH(&dom->boolProps, perm) = row`, `src/dom/modification.c:64-65`. -/
def pushBoolProp (r : Row) (M : MDom) (a : Arena) : Out (MDom × Arena) := do
  let (s, a) ← arrPushElem 4 2 false (encRow r) M.boolProps a
  .ok ({ M with boolProps := s }, a)

/-- `*FLO_PUSH(&dom->props, perm) = row`, `src/dom/modification.c:54-55`. -/
def pushProp (r : PropRow) (M : MDom) (a : Arena) : Out (MDom × Arena) := do
  let (s, a) ← arrPushElem 6 2 false (encProp r) M.props a
  .ok ({ M with props := s }, a)

/-- `*FLO_PUSH(&dom->tagRegistry, perm) = ...`, `src/dom/modification.c:133-134`. -/
def pushTagReg (s : MStr) (paired : Bool) (M : MDom) (a : Arena) : Out (MDom × Arena) := do
  let (x, a) ← arrPushElem 24 8 false (encTag s paired) M.tagReg a
  .ok ({ M with tagReg := x }, a)

/-- `*FLO_PUSH(&dom->boolPropRegistry, perm) = prop`, `src/dom/modification.c:28`. -/
def pushBoolReg (s : MStr) (M : MDom) (a : Arena) : Out (MDom × Arena) := do
  let (x, a) ← arrPushElem 16 8 false (encStr s) M.boolReg a
  .ok ({ M with boolReg := x }, a)

/-- `*FLO_PUSH(&dom->propKeyRegistry, perm) = prop`, `src/dom/modification.c:32`. -/
def pushKeyReg (s : MStr) (M : MDom) (a : Arena) : Out (MDom × Arena) := do
  let (x, a) ← arrPushElem 16 8 false (encStr s) M.keyReg a
  .ok ({ M with keyReg := x }, a)

/-- `*FLO_PUSH(&dom->propValueRegistry, perm) = prop`, `src/dom/modification.c:36`. -/
def pushValReg (s : MStr) (M : MDom) (a : Arena) : Out (MDom × Arena) := do
  let (x, a) ← arrPushElem 16 8 false (encStr s) M.valReg a
  .ok ({ M with valReg := x }, a)

/-- Writing a member of `s.buf[k]`: the bytes `e` at offset `off`, e.g. `src/dom/modification.c:137`. -/
def arrPoke (size : Int) (k : Nat) (off : Int) (e : List UInt8) (s : Arr) (a : Arena) : Out Arena :=
  match s.buf with
  | some b => if (k : Int) < s.len then .ok { a with mem := memWrite (b + size * k + off) e a.mem } else .ub .oobIndex
  | none => .ub .nullDeref

/-- `flo_html_createNode`, `src/dom/dom-util.c:13-26`. -/
def memCreateNode (t : NodeType) (M : MDom) (a : Arena) : Out (Nat × MDom × Arena) :=
  if M.nodes.len > 65534 then .longjmp
  else do
    let (M', a) ← pushNode M.nodes.len.toNat t M a
    .ok (M.nodes.len.toNat, M', a)

/-- `getCreatedPropIDFromString` with `PROPERTY_TYPE_BOOL`, `src/dom/modification.c:19-43`. -/
def memInternBool (s : MStr) (M : MDom) (a : Arena) : Out (Nat × MDom × Arena) := do
  let r ← memInsertMap s M.boolMap a
  let M := { M with boolMap := r.map }
  if r.wasInserted then do
    let (M, a) ← pushBoolReg s M r.arena
    .ok (r.entryIndex, M, a)
  else .ok (r.entryIndex, M, r.arena)

/-- `getCreatedPropIDFromString` with `PROPERTY_TYPE_KEY`, `src/dom/modification.c:19-43`. -/
def memInternKey (s : MStr) (M : MDom) (a : Arena) : Out (Nat × MDom × Arena) := do
  let r ← memInsertMap s M.keyMap a
  let M := { M with keyMap := r.map }
  if r.wasInserted then do
    let (M, a) ← pushKeyReg s M r.arena
    .ok (r.entryIndex, M, a)
  else .ok (r.entryIndex, M, r.arena)

/-- `getCreatedPropIDFromString` with `PROPERTY_TYPE_VALUE`, `src/dom/modification.c:19-43`. -/
def memInternVal (s : MStr) (M : MDom) (a : Arena) : Out (Nat × MDom × Arena) := do
  let r ← memInsertMap s M.valMap a
  let M := { M with valMap := r.map }
  if r.wasInserted then do
    let (M, a) ← pushValReg s M r.arena
    .ok (r.entryIndex, M, a)
  else .ok (r.entryIndex, M, r.arena)

/-- `flo_html_addPropertyToNode`, `src/dom/modification.c:45-56`. -/
def memAddProperty (n : Nat) (key value : MStr) (M : MDom) (a : Arena) : Out (MDom × Arena) := do
  let (k, M, a) ← memInternKey key M a
  let (v, M, a) ← memInternVal value M a
  pushProp ⟨n, k, v⟩ M a

/-- `flo_html_addBooleanPropertyToNode`, `src/dom/modification.c:58-66`. -/
def memAddBoolProperty (n : Nat) (name : MStr) (M : MDom) (a : Arena) : Out (MDom × Arena) := do
  let (b, M, a) ← memInternBool name M a
  pushBoolProp (n, b) M a

/-- `flo_html_setTagOnDocumentNode`, `src/dom/modification.c:127-138`; the tag identifier is at offset 8 of a node. -/
def memSetTag (tag : MStr) (n : Nat) (isPaired : Bool) (M : MDom) (a : Arena) : Out (MDom × Arena) := do
  let r ← memInsertMap tag M.tagMap a
  let M := { M with tagMap := r.map }
  let (M, a) ← (if r.wasInserted then pushTagReg tag isPaired M r.arena else .ok (M, r.arena))
  let a ← arrPoke 24 n 8 (leBytes 2 r.entryIndex) M.nodes a
  .ok (M, a)

/-- `updateReferences` of the parser, `src/parser.c:36-59`. -/
def memUpdateReferences (new prev : Nat) (stack : List (Nat × MStr)) (M : MDom) (a : Arena) : Out (MDom × Arena) :=
  if new > 0 ∧ prev > 0 then
    match stack with
    | [] => pushNn (prev, new) M a
    | (parent, _) :: _ => do
      let (M, a) ← pushPc (parent, new) M a
      if parent = prev then pushFc (parent, new) M a else pushNn (prev, new) M a
  else .ok (M, a)

/-- The address of a buffer as stored in a string; NULL is 0 (`src/parser.c:157`). -/
def bufPtr (b : Option Int) : Int := b.getD 0

/-- One appended chunk of `parseTextNode`, `src/parser.c:146-154`: a space if there is text already, then the chunk. -/
def memAddChunk (t : Str) (isAppend : Bool) (raw : Arr) (a : Arena) : Out (Arr × Arena) := do
  let (raw, a) ← (if isAppend then rawAdd [cSp] raw a else .ok (raw, a))
  rawAdd t raw a

/-- The loop of `parseTextNode`, `src/parser.c:125-156`.  `src` is the source text in memory; each iteration reads it anew. -/
def memTextLoop (src tag : MStr) : Nat → Nat → Arr → Bool → Arena → Out (Arr × Nat × Arena)
  | 0, _, _, _, _ => .hang
  | f + 1, idx, raw, isAppend, a =>
    let s := src.read a.mem
    match s[idx]? with
    | none => .ok (raw, idx, a)
    | some ch => do
      let (stop, cmt) ← textStop s (tag.read a.mem) idx ch
      if stop then .ok (raw, idx, a)
      else if cmt then do
        let i ← skipComment s idx
        memTextLoop src tag f (skipSpace s i) raw isAppend a
      else do
        let (i, t) ← parseChunk s idx
        let (raw, a) ← memAddChunk t isAppend raw a
        memTextLoop src tag f (skipSpace s i) raw true a

/-- `parseTextNode`, `src/parser.c:112-161`; the text is at offset 8 of a node. -/
def memParseTextNode (src : MStr) (idx : Nat) (tag : MStr) (M : MDom) (a : Arena) : Out (Nat × Nat × MDom × Arena) := do
  let (id, M, a) ← memCreateNode .text M a
  let (raw, i, a) ← memTextLoop src tag (src.len + 1) idx .empty false a
  let a ← arrPoke 24 id 8 (encStr ⟨bufPtr raw.buf, raw.len.toNat⟩) M.nodes a
  .ok (id, i, M, a)

/-- `parseProp`, `src/parser.c:163-188`: the token is a pointer into the source. -/
def memParseProp (src : MStr) (idx : Nat) (mem : Int → UInt8) : Out (MStr × Nat) :=
  let s := src.read mem
  let ch := currentChar s idx
  if ch == cQuot || ch == cDQuot then do
    let (i, len) := quoteLoop ch (s.drop idx) idx 0 (-2)
    let _ ← subStr s ((idx : Int) + 1) len
    .ok (⟨src.ptr + (idx + 1), len.toNat⟩, i)
  else do
    let i := scanUntil isPropEnd (s.drop idx) idx
    let _ ← subStr s idx ((i : Int) - idx)
    .ok (⟨src.ptr + idx, ((i : Int) - idx).toNat⟩, i)

/-- The attribute loop of `parseDocumentNode`, `src/parser.c:219-244`. -/
def memAttrLoop (src : MStr) (node : Nat) : Nat → Nat → Bool → MDom → Arena → Out (Nat × Bool × MDom × Arena)
  | 0, _, _, _, _ => .hang
  | f + 1, idx, can, M, a =>
    let s := src.read a.mem
    match s[idx]? with
    | none => .ok (idx, can, M, a)
    | some ch =>
      if ch == cGt then .ok (idx, can, M, a)
      else if ch == cSlash then memAttrLoop src node f (skipSpace s (idx + 1)) false M a
      else if ch != cSp && !isFormatting ch then do
        let (key, i) ← memParseProp src idx a.mem
        if currentChar s i == cEq then do
          let (value, j) ← memParseProp src (i + 1) a.mem
          let (M, a) ← memAddProperty node key value M a
          memAttrLoop src node f (skipSpace (src.read a.mem) j) can M a
        else do
          let (M, a) ← memAddBoolProperty node key M a
          memAttrLoop src node f (skipSpace (src.read a.mem) i) can M a
      else memAttrLoop src node f (skipSpace s idx) can M a

/-- Result of `parseDocumentNode` (`src/parser.c:67-72`), with the structure and the arena. -/
structure MNodeParse where
  id : Nat
  canHaveChildren : Bool
  tag : MStr
  next : Nat
  dom : MDom
  arena : Arena

/-- `parseDocumentNode`, `src/parser.c:190-258`. -/
def memParseDocumentNode (src : MStr) (idx : Nat) (exclam : Bool) (M : MDom) (a : Arena) : Out MNodeParse := do
  let (id, M, a) ← memCreateNode .document M a
  let s := src.read a.mem
  let i := scanUntil isTagEnd (s.drop idx) idx
  let size : Int := (i : Int) - idx
  let slashed ← tagSlashed s i
  let can := if slashed then false else !exclam
  let size := if slashed then size - 1 else size
  let _ ← subStr s idx size
  let tag : MStr := ⟨src.ptr + idx, size.toNat⟩
  let can := if isVoidElement (tag.read a.mem) then false else can
  let (j, can, M, a) ← memAttrLoop src id (src.len + 1) (skipSpace s i) can M a
  let (M, a) ← memSetTag tag id can M a
  .ok { id := id, canHaveChildren := can, tag := tag, next := j + 1, dom := M, arena := a }

/-- State of the main loop of `flo_html_parse`, `src/parser.c:260-266`. -/
structure MPState where
  idx : Nat
  dom : MDom
  arena : Arena
  stack : List (Nat × MStr)
  prev : Nat

/-- One iteration of the main loop either goes on or returns NULL (`src/parser.c:292-296`). -/
inductive MPStep where
  | next (st : MPState)
  | null (M : MDom) (a : Arena)

/-- Is there an end tag of the innermost open element at `idx`?  `src/parser.c:272-273`; see `atEndTag`. -/
def memAtEndTag (junk : Nat → Out Bool) (src : MStr) (idx : Nat) (stack : List (Nat × MStr)) (mem : Int → UInt8) : Out Bool :=
  match stack with
  | (_, tag) :: _ => isEndDocumentTag (src.read mem) idx (tag.read mem)
  | [] => if currentChar (src.read mem) (idx + 1) == cSlash then junk idx else .ok false

/-- `FLO_EMPTY_STRING`, `util/include/flo/util/text/string.h:15-16`; nothing is read through its pointer. -/
def MStr.empty : MStr := ⟨0, 0⟩

/-- The tag of the innermost open element, `src/parser.c:307-309`. -/
def memTopTag (stack : List (Nat × MStr)) : MStr :=
  match stack with
  | (_, t) :: _ => t
  | [] => .empty

/-- Text branch shared by `src/parser.c:304-316` and `src/parser.c:319-330`. -/
def memParseText (src : MStr) (idx : Nat) (st : MPState) : Out MPStep := do
  let (id, i, M, a) ← memParseTextNode src idx (memTopTag st.stack) st.dom st.arena
  let (M, a) ← memUpdateReferences id st.prev st.stack M a
  .ok (.next { idx := skipSpace (src.read a.mem) i, dom := M, arena := a, stack := st.stack, prev := id })

/-- Start-tag branch, `src/parser.c:281-303`. -/
def memParseElement (src : MStr) (idx : Nat) (st : MPState) : Out MPStep := do
  let r ← memParseDocumentNode src idx (currentChar (src.read st.arena.mem) idx == cBang) st.dom st.arena
  let (M, a) ← memUpdateReferences r.id st.prev st.stack r.dom r.arena
  let s := src.read a.mem
  if r.canHaveChildren then
    if st.stack.length ≥ maxDepth then .ok (.null M a)
    else .ok (.next { idx := skipSpace s r.next, dom := M, arena := a, stack := (r.id, r.tag) :: st.stack, prev := r.id })
  else .ok (.next { idx := skipSpace s r.next, dom := M, arena := a, stack := st.stack, prev := r.id })

/-- End-tag branch, `src/parser.c:272-279`. -/
def memParseEndTag (s : Str) (startLen : Nat) (st : MPState) : MPStep :=
  let i := skipSpace s (scanUntil (· == cGt) (s.drop st.idx) st.idx + 1)
  match st.stack with
  | (id, _) :: rest =>
    if st.stack.length > startLen then .next { st with idx := i, stack := rest, prev := id }
    else .next { st with idx := i }
  | [] => .next { st with idx := i }

/-- One iteration of the main loop, `src/parser.c:269-332`. -/
def memParseStep (junk : Nat → Out Bool) (src : MStr) (startLen : Nat) (st : MPState) : Out MPStep :=
  let s := src.read st.arena.mem
  if currentChar s st.idx == cLt then do
    let cmt ← isCommentTag s st.idx
    if cmt then do
      let i ← skipComment s st.idx
      .ok (.next { st with idx := skipSpace s i })
    else do
      let e ← memAtEndTag junk src st.idx st.stack st.arena.mem
      if e then .ok (memParseEndTag s startLen st)
      else
        let ch := currentChar s (st.idx + 1)
        if isAlphabetical ch || ch == cBang then memParseElement src (st.idx + 1) st
        else memParseText src (st.idx + 1) st
  else memParseText src st.idx st

/-- Result of `flo_html_parse`, `src/parser.c:295,335`: `ok = false` is the NULL return. -/
structure MParseRes where
  ok : Bool
  dom : MDom
  arena : Arena

/-- The main loop of `flo_html_parse`, `src/parser.c:268-333`. -/
def memParseLoop (junk : Nat → Out Bool) (src : MStr) (startLen : Nat) : Nat → MPState → Out MParseRes
  | 0, _ => .hang
  | f + 1, st =>
    if st.idx < src.len then do
      match ← memParseStep junk src startLen st with
      | .next st => memParseLoop junk src startLen f st
      | .null M a => .ok ⟨false, M, a⟩
    else .ok ⟨true, st.dom, st.arena⟩

/-- `flo_html_parse`, `src/parser.c:260-336`. -/
def memParse (junk : Nat → Out Bool) (src : MStr) (M : MDom) (a : Arena) (prev : Nat) (stack : List (Nat × MStr)) :
    Out MParseRes :=
  memParseLoop junk src stack.length (src.len + 1)
    { idx := skipSpace (src.read a.mem) 0, dom := M, arena := a, stack := stack, prev := prev }

/-- The setup of `flo_html_createDom`, `src/dom/dom.c:24-40`. -/
def memInitDom (a : Arena) : Out (MDom × Arena) := do
  let (_, a) ← arenaAlloc 304 8 1 true false a
  let (M, a) ← pushNode 0 .error .zero a
  let (M, a) ← pushNode 1 .root M a
  let (M, a) ← pushTagReg .empty false M a
  let (M, a) ← pushBoolReg .empty M a
  let (M, a) ← pushKeyReg .empty M a
  pushValReg .empty M a

/-- `flo_html_createDom`, `src/dom/dom.c:23-43`. -/
def memCreateDom (src : MStr) (a : Arena) : Out (Option MDom × Arena) := do
  let (M, a) ← memInitDom a
  let r ← memParse (fun _ => .ub .oobIndex) src M a rootID [(rootID, .empty)]
  .ok (if r.ok then some r.dom else none, r.arena)

end Flo
