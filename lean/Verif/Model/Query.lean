import Verif.Model.Edit
import Verif.Model.Msi
/-!
# CSS queries

Sources: `src/dom/query/query.c`, `src/dom/query/query-util.c`.
-/
namespace Flo

/-- `flo_html_FilterType`, `include/flo/html-parser/dom/query/query-util.h:19-44`. -/
inductive Filter where
  | all
  | tag (id : Nat)
  | bool (id : Nat)
  | prop (key value : Nat)
  deriving DecidableEq, Repr

/-- `flo_html_Combinator`, `include/flo/html-parser/dom/query/query-util.h:26-32`. -/
inductive Combinator where
  | none | adjacent | child | general | descendant
  deriving DecidableEq, Repr

/-- `flo_html_QueryStatus`, `include/flo/html-parser/dom/query/query-status.h:10-17`. -/
inductive QStatus where
  | success | invalidElement | tooManyFilters | notSeenBefore | memoryError
  deriving DecidableEq, Repr

/-- `FLO_HTML_MAX_FILTERS_PER_ELEMENT`, `include/flo/html-parser/dom/query/query-util.h:17`. -/
abbrev maxFilters : Nat := 8

/-- `flo_html_filterNode`, `src/dom/query/query-util.c:10-62`.  `pun` answers reads of `tagID` from text
nodes. -/
def filterNode (pun : Nat → Nat) (n : Nat) (d : Dom) : List Filter → Out Bool
  | [] => .ok true
  | .all :: _ => .ok true
  | .tag t :: fs => do
    let node ← d.node n
    if node.getTag pun n ≠ t then .ok false else filterNode pun n d fs
  | .bool b :: fs =>
    if d.boolProps.any (fun r => r.1 == n && r.2 == b) then filterNode pun n d fs else .ok false
  | .prop k v :: fs =>
    if d.props.any (fun r => r.node == n && r.key == k && r.value == v) then filterNode pun n d fs
    else .ok false

/-- The loop of `flo_html_getNodesWithoutflo_html_Combinator`, `src/dom/query/query-util.c:68-73`, over a
list of node identifiers. -/
def allNodesLoop (pun : Nat → Nat) (fs : List Filter) (d : Dom) : List Nat → U16Set → Out U16Set
  | [], set => .ok set
  | i :: is, set => do
    let keep ← filterNode pun i d fs
    let set ← if keep then u16Insert i set else .ok set
    allNodesLoop pun fs d is set

/-- `flo_html_getNodesWithoutflo_html_Combinator`, `src/dom/query/query-util.c:64-76`: all nodes `0..len-1`,
including the error node, the root, text nodes and removed nodes. -/
def nodesWithoutCombinator (pun : Nat → Nat) (fs : List Filter) (d : Dom) (set : U16Set) : Out U16Set :=
  allNodesLoop pun fs d (List.range d.nodes.length) set

/-- The sibling loop of `flo_html_getFilteredAdjacents`, `src/dom/query/query-util.c:91-98`; `k` is
`siblingsNumberCopy`, `none` meaning `PTRDIFF_MAX`. -/
def siblingsLoop (pun : Nat → Nat) (fs : List Filter) (d : Dom) :
    Nat → Option Nat → Nat → U16Set → Out U16Set
  | 0, _, _, _ => .hang
  | f + 1, k, next, set =>
    if k ≠ some 0 ∧ next > 0 then do
      let keep ← filterNode pun next d fs
      let set ← if keep then u16Insert next set else .ok set
      siblingsLoop pun fs d f (k.map (· - 1)) (getNext next d) set
    else .ok set

/-- The loop over the set in `flo_html_getFilteredAdjacents`, `src/dom/query/query-util.c:86-99`. -/
def adjacentsLoop (pun : Nat → Nat) (fs : List Filter) (d : Dom) (k : Option Nat) :
    List Nat → U16Set → Out U16Set
  | [], acc => .ok acc
  | v :: vs, acc => do
    let acc ← siblingsLoop pun fs d (d.nn.length + 2) k (getNext v d) acc
    adjacentsLoop pun fs d k vs acc

/-- `flo_html_getFilteredAdjacents`, `src/dom/query/query-util.c:79-106`. -/
def filteredAdjacents (pun : Nat → Nat) (fs : List Filter) (d : Dom) (k : Option Nat) (set : U16Set) :
    Out U16Set :=
  adjacentsLoop pun fs d k (set.toList 0) U16Set.fresh

/-- One pass over `parentChilds` in `flo_html_getFilteredDescendants`, `src/dom/query/query-util.c:124-140`:
(next level, results). -/
def descPass (pun : Nat → Nat) (fs : List Filter) (d : Dom) (filled : U16Set) :
    List Row → U16Set → U16Set → Out (U16Set × U16Set)
  | [], toFill, set => .ok (toFill, set)
  | (p, c) :: rows, toFill, set => do
    let node ← d.node c
    let hit ← if node.type = .document then u16Contains p filled else .ok false
    if hit then do
      let toFill ← u16Insert c toFill
      let keep ← filterNode pun c d fs
      let set ← if keep then u16Insert c set else .ok set
      descPass pun fs d filled rows toFill set
    else descPass pun fs d filled rows toFill set

/-- The level loop of `flo_html_getFilteredDescendants`, `src/dom/query/query-util.c:123-155`; `k` is `depth`,
`none` meaning `PTRDIFF_MAX`.  The two sets are swapped and the one to be filled is cleared. -/
def descLoop (pun : Nat → Nat) (fs : List Filter) (d : Dom) :
    Nat → Option Nat → U16Set → U16Set → U16Set → Out U16Set
  | 0, _, _, _, _ => .hang
  | f + 1, k, filled, toFill, set =>
    if k ≠ some 0 ∧ filled.len > 0 then do
      let (toFill, set) ← descPass pun fs d filled d.pc toFill set
      descLoop pun fs d f (k.map (· - 1)) toFill (u16Reset filled) set
    else .ok set

/-- `flo_html_getFilteredDescendants`, `src/dom/query/query-util.c:109-158`. -/
def filteredDescendants (pun : Nat → Nat) (fs : List Filter) (d : Dom) (k : Option Nat) (set : U16Set) :
    Out U16Set := do
  let second ← Msi.new 0 set.exp
  descLoop pun fs d (d.nodes.length + 2) k set second (u16Reset set)

/-! ## Query syntax, `src/dom/query/query.c` -/

/-- `isTagStartChar`, `src/dom/query/query.c:48-50`. -/
def isTagStartChar (ch : UInt8) : Bool := isAlphabetical ch || ch == cBang
/-- `isElementStartChar`, `src/dom/query/query.c:52-54`; '.' is 46, '#' is 35. -/
def isElementStartChar (ch : UInt8) : Bool := isTagStartChar ch || ch == 46 || ch == 35
/-- `isSpecifiedCombinator`, `src/dom/query/query.c:56-58`; '+' is 43, '~' is 126. -/
def isSpecifiedCombinator (ch : UInt8) : Bool := ch == cGt || ch == 43 || ch == 126
/-- `isCombinator`, `src/dom/query/query.c:60-62`. -/
def isCombinatorChar (ch : UInt8) : Bool := ch == cSp || isSpecifiedCombinator ch
/-- `endOfCurrentFilter`, `src/dom/query/query.c:64-67`; '[' is 91. -/
def endOfCurrentFilter (ch : UInt8) : Bool :=
  isCombinatorChar ch || isFormatting ch || ch == 91 || ch == 46 || ch == 35

/-- End of a token, `src/dom/query/query.c:75-76`; ']' is 93. -/
def isTokenEnd (ch : UInt8) : Bool := ch == cSp || isFormatting ch || ch == cEq || ch == 93
/-- `src/dom/query/query.c:82-83`. -/
def isAfterToken (ch : UInt8) : Bool := ch == cEq || ch == 93 || ch == 46 || ch == 35

/-- `parseToken`, `src/dom/query/query.c:73-86`: (token, next position). -/
def parseToken (s : Str) (idx : Nat) : Out (Str × Nat) := do
  let i := scanUntil isTokenEnd (s.drop idx) idx
  let t ← subStr s idx ((i : Int) - idx)
  .ok (t, scanUntil isAfterToken (s.drop i) i)

/-- Result of a part of the query machine (`src/dom/query/query.c:88-287`): either an early `return status`, or go on. -/
inductive QRes (α : Type) where
  | fail (st : QStatus)
  | go (a : α)
  deriving DecidableEq, Repr

/-- The attribute loop `FLO_PARSE_PARSE_CHAR_WHILE(ps, ch == '[' || ch == '.' || ch == '#', ...)`,
`src/dom/query/query.c:127-203`: (position, filters). -/
def attrFilters (s : Str) (d : Dom) : Nat → Nat → List Filter → Out (QRes (Nat × List Filter))
  | 0, _, _ => .hang
  | f + 1, idx, fs =>
    match s[idx]? with
    | none => .ok (.go (idx, fs))
    | some c =>
      if c == 91 || c == 46 || c == 35 then
        if fs.length ≥ maxFilters then .ok (.fail .tooManyFilters)
        else do
          let i := scanUntil isTagStartChar (s.drop idx) idx
          let (token, i) ← parseToken s i
          let ch := currentChar s i
          if c == 46 || c == 35 then
            let key := if c == 46 then b!"class" else b!"id"
            let k := d.keyMap.contains key
            if k = 0 then .ok (.fail .notSeenBefore)
            else
              let v := d.valMap.contains token
              if v = 0 then .ok (.fail .notSeenBefore)
              else attrFilters s d f (if ch == 93 then i + 1 else i) (fs ++ [.prop k v])
          else if ch == 93 then
            let b := d.boolMap.contains token
            if b = 0 then .ok (.fail .notSeenBefore)
            else attrFilters s d f (i + 1) (fs ++ [.bool b])
          else if ch == cEq then
            let k := d.keyMap.contains token
            if k = 0 then .ok (.fail .notSeenBefore)
            else do
              let i := scanUntil isTagStartChar (s.drop (i + 1)) (i + 1)
              let (value, i) ← parseToken s i
              let ch := currentChar s i
              let v := d.valMap.contains value
              if v = 0 then .ok (.fail .notSeenBefore)
              else attrFilters s d f (if ch == 93 then i + 1 else i) (fs ++ [.prop k v])
          else attrFilters s d f (if ch == 93 then i + 1 else i) fs
      else .ok (.go (idx, fs))

/-- The leading tag or `*` of an element, `src/dom/query/query.c:104-125` ('*' is 42). -/
def leadFilter (s : Str) (d : Dom) (idx : Nat) : Out (QRes (Nat × List Filter)) :=
  let ch := currentChar s idx
  if isTagStartChar ch then do
    let i := scanUntil endOfCurrentFilter (s.drop idx) idx
    let tag ← subStr s idx ((i : Int) - idx)
    let t := d.tagMap.contains tag
    if t = 0 then .ok (.fail .notSeenBefore) else .ok (.go (i, [.tag t]))
  else if ch == 42 then
    .ok (.go (scanUntil endOfCurrentFilter (s.drop idx) idx, [.all]))
  else .ok (.go (idx, []))

/-- The combinator swoop, `src/dom/query/query.c:259-264`, over the remaining bytes:
(position, combinator character). -/
def swoop : Str → Nat → UInt8 → Nat × UInt8
  | [], i, c => (i, c)
  | ch :: cs, i, c =>
    if isElementStartChar ch || ch == 91 then (i, c)
    else swoop cs (i + 1) (if isSpecifiedCombinator ch then ch else c)

/-- The second switch, `src/dom/query/query.c:266-283`. -/
def combinatorOf (ch : UInt8) : Combinator :=
  if ch == cSp then .descendant
  else if ch == 43 then .adjacent
  else if ch == cGt then .child
  else .general

/-- The first switch ("Do filtering"), `src/dom/query/query.c:212-253`. -/
def applyCombinator (pun : Nat → Nat) (c : Combinator) (fs : List Filter) (d : Dom) (set : U16Set) :
    Out U16Set :=
  match c with
  | .none => nodesWithoutCombinator pun fs d set
  | .adjacent => filteredAdjacents pun fs d (some 1) set
  | .child => filteredDescendants pun fs d (some 1) set
  | .general => filteredAdjacents pun fs d none set
  | .descendant => filteredDescendants pun fs d none set

/-- The main loop of `getQueryResults`, `src/dom/query/query.c:102-284`.  `filtersLen` is 0 at the start of
every iteration, so the filter-limit test before the leading tag never fires. -/
def queryLoop (pun : Nat → Nat) (s : Str) (d : Dom) :
    Nat → Nat → Combinator → U16Set → Out (QRes U16Set)
  | 0, _, _, _ => .hang
  | f + 1, idx, comb, set =>
    if idx < s.length then do
      match ← leadFilter s d idx with
      | .fail st => .ok (.fail st)
      | .go (idx, fs) =>
        match ← attrFilters s d (s.length + 1) idx fs with
        | .fail st => .ok (.fail st)
        | .go (idx, fs) =>
          if fs.length < 1 then .ok (.fail .invalidElement)
          else do
            let set ← applyCombinator pun comb fs d set
            let (idx, c) := swoop (s.drop idx) idx cSp
            queryLoop pun s d f idx (combinatorOf c) set
    else .ok (.go set)

/-- `getQueryResults`, `src/dom/query/query.c:88-287` (with `PARSE_EMPTY_CONTENT`, lines 69-71,101). -/
def getQueryResults (pun : Nat → Nat) (s : Str) (d : Dom) (set : U16Set) : Out (QRes U16Set) :=
  queryLoop pun s d (s.length + 1)
    (scanUntil (fun ch => isElementStartChar ch || ch == 91 || ch == 42) s 0) .none set

/-- The loop of `flo_html_querySelectorAll` over the comma separated parts, `src/dom/query/query.c:303-324`.
`flo_splitString` (`util/include/flo/util/text/string.h:79-91`) cuts at the next ',' (44). -/
def selectLoop (pun : Nat → Nat) (css : Str) (d : Dom) :
    Nat → Nat → U16Set → U16Set → Out (QRes U16Set)
  | 0, _, _, _ => .hang
  | f + 1, start, set, results =>
    if start < css.length then do
      let part := (css.drop start).takeWhile (· != 44)
      match ← getQueryResults pun part d set with
      | .fail st => .ok (.fail st)
      | .go set => do
        let results ← u16InsertAll (set.toList 0) results
        selectLoop pun css d f (start + part.length + 1) (u16Reset set) results
    else .ok (.go results)

/-- `flo_html_querySelectorAll`, `src/dom/query/query.c:289-336`: status and, on success, the array. -/
def querySelectorAll (pun : Nat → Nat) (css : Str) (d : Dom) : Out (QRes (List Nat)) := do
  match ← selectLoop pun css d (css.length + 1) 0 U16Set.fresh U16Set.fresh with
  | .fail st => .ok (.fail st)
  | .go results => do
    let arr ← u16ToArray results
    .ok (.go arr)

/-- The loop of `flo_html_querySelector`, `src/dom/query/query.c:354-363`; `none` means it ran off the end
without writing `*result`. -/
def selectorLoop (d : Dom) (results : List Nat) : Nat → Nat → Out (Option Nat)
  | 0, _ => .hang
  | f + 1, cur =>
    if cur ≠ 0 then
      if results.contains cur then .ok (some cur)
      else do
        let next ← traverseDom cur d
        selectorLoop d results f next
    else .ok none

/-- `flo_html_querySelector`, `src/dom/query/query.c:338-366`.  On success the result is the node written
through `result`, or `none` if nothing was written. -/
def querySelector (pun : Nat → Nat) (css : Str) (d : Dom) : Out (QRes (Option Nat)) := do
  match ← querySelectorAll pun css d with
  | .fail st => .ok (.fail st)
  | .go results =>
    if results.length = 0 then .ok (.go (some 0))
    else do
      let r ← selectorLoop d results (d.nodes.length + 1) rootID
      .ok (.go r)

/-! ## Edits addressed by a query -/

/-- `APPEND_USING_QUERYSELECTOR`, `src/dom/appendix.c:18-32` (also `PREPEND_` `src/dom/prependix.c:19-33`,
`REPLACE_` `src/dom/replacement.c:20-34`).  `parentNodeID` is initialised to 0, so a query that leaves
`*result` unwritten edits node 0 as well. -/
def withQuery (pun : Nat → Nat) (css : Str) (edit : Nat → Dom → Out (Nat × Dom)) (d : Dom) :
    Out (Nat × Dom) := do
  match ← querySelector pun css d with
  | .fail _ => .ok (0, d)
  | .go r => edit (r.getD 0) d

end Flo
