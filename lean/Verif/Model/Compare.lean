import Verif.Model.Edit
import Verif.Model.Msi
/-!
# Comparing and duplicating DOMs

Sources: `src/dom/comparison.c`, `util/src/hash/msi/string-set.c`, `src/dom/dom.c:50-95`.
-/
namespace Flo

/-- `flo_html_ComparisonStatus`, `include/flo/html-parser/comparison-status.h:10-17`. -/
inductive CStatus where
  | success | memory | differentNodeType | differentSizes | differentContent
  deriving DecidableEq, Repr

/-- `flo_html_ComparisonResult`, `include/flo/html-parser/dom/comparison.h:11-15`. -/
structure CResult where
  status : CStatus
  node1 : Nat
  node2 : Nat
  deriving DecidableEq, Repr

/-- `FLO_NEW_MSI_SET(flo_msi_String, 7, ..)`, `src/dom/comparison.c:103` etc. -/
def StrSet.fresh : StrSet := { exp := 7, len := 0, buf := List.replicate 128 [] }

/-- `flo_msi_html_stringInsert`, `src/dom/comparison.c:56-66`: jumps once half of the slots count as used. -/
def strSetInsert (s : Str) (m : StrSet) : Out StrSet :=
  if m.len ≥ 2 ^ m.exp / 2 then .longjmp
  else do
    let (_, m) ← msiInsert [] s (hashDjb2 s) m
    .ok m

/-- `buf[i]` of a registry, e.g. `src/dom/comparison.c:74`. -/
def regAt {α : Type} (reg : List α) (i : Nat) : Out α :=
  match reg[i]? with
  | some x => .ok x
  | none => .ub .oobIndex

/-- The loop of `fillPropsSet`, `src/dom/comparison.c:68-82`, over the rows of `props`. -/
def fillPropsLoop (n : Nat) (d : Dom) : List PropRow → StrSet → StrSet → Out (StrSet × StrSet)
  | [], ks, vs => .ok (ks, vs)
  | r :: rs, ks, vs =>
    if r.node = n then do
      let k ← regAt d.keyReg r.key
      let ks ← strSetInsert k ks
      let v ← regAt d.valReg r.value
      let vs ← strSetInsert v vs
      fillPropsLoop n d rs ks vs
    else fillPropsLoop n d rs ks vs

/-- The loop of `fillBoolPropsSet`, `src/dom/comparison.c:84-93`. -/
def fillBoolLoop (n : Nat) (d : Dom) : List Row → StrSet → Out StrSet
  | [], bs => .ok bs
  | r :: rs, bs =>
    if r.1 = n then do
      let b ← regAt d.boolReg r.2
      let bs ← strSetInsert b bs
      fillBoolLoop n d rs bs
    else fillBoolLoop n d rs bs

/-- Is every element of the list in the set?  (The two loops of `flo_msi_equalsStringSet`,
`util/src/hash/msi/string-set.c:37-50`.) -/
def allIn (m : StrSet) : List Str → Out Bool
  | [] => .ok true
  | e :: es => do
    let c ← msiContains [] e (hashDjb2 e) m
    if c then allIn m es else .ok false

/-- `flo_msi_equalsStringSet`, `util/src/hash/msi/string-set.c:31-53`, with the status mapping of
`convertHashComparisonToComparison`, `src/dom/comparison.c:14-33`. -/
def equalsStringSet (s1 s2 : StrSet) : Out CStatus :=
  if s1.len ≠ s2.len then .ok .differentSizes
  else do
    let a ← allIn s2 (s1.toList [])
    if !a then .ok .differentContent
    else do
      let b ← allIn s1 (s2.toList [])
      if !b then .ok .differentContent else .ok .success

/-- `compareProps`, `src/dom/comparison.c:98-141` (without the optional printing). -/
def compareProps (n1 : Nat) (d1 : Dom) (n2 : Nat) (d2 : Dom) : Out CStatus := do
  let (k1, v1) ← fillPropsLoop n1 d1 d1.props StrSet.fresh StrSet.fresh
  let (k2, v2) ← fillPropsLoop n2 d2 d2.props StrSet.fresh StrSet.fresh
  let r ← equalsStringSet k1 k2
  if r ≠ .success then .ok r else equalsStringSet v1 v2

/-- `compareBoolProps`, `src/dom/comparison.c:143-168`. -/
def compareBoolProps (n1 : Nat) (d1 : Dom) (n2 : Nat) (d2 : Dom) : Out CStatus := do
  let b1 ← fillBoolLoop n1 d1 d1.boolProps StrSet.fresh
  let b2 ← fillBoolLoop n2 d2 d2.boolProps StrSet.fresh
  equalsStringSet b1 b2

/-- Reading `node.tagID` of a document node, e.g. `src/dom/writing.c:32` (whose union always holds a tag). -/
def Node.docTag (n : Node) : Out Nat :=
  match n.payload with
  | .tag t => .ok t
  | .text _ => .ub .badUnion

/-- `compareTags`, `src/dom/comparison.c:170-263`. -/
def compareTags (a : Node) (d1 : Dom) (b : Node) (d2 : Dom) : Out CStatus :=
  if a.type ≠ b.type then .ok .differentNodeType
  else
    match a.type with
    | .text => do
      let t1 ← a.getText
      let t2 ← b.getText
      .ok (if strEq t1 t2 then .success else .differentContent)
    | .document => do
      let i1 ← a.docTag
      let i2 ← b.docTag
      let r1 ← regAt d1.tagReg i1
      let r2 ← regAt d2.tagReg i2
      if r1.2 ≠ r2.2 then .ok .differentNodeType
      else if !strEq r1.1 r2.1 then .ok .differentContent
      else .ok .success
    | .root => .ok .success
    | _ => .ok .differentNodeType

/-- The child loop of `compareNode`, `src/dom/comparison.c:297-306`, and the length check
`childNode1 ^ childNode2` (lines 308-311; after the loop at least one of the two is 0, so the exclusive or is
non-zero iff they differ). -/
def compareChildren (cmp : Nat → Nat → Out CResult) (d1 d2 : Dom) (p1 p2 : Nat) :
    Nat → Nat → Nat → Out CResult
  | 0, _, _ => .hang
  | f + 1, c1, c2 =>
    if c1 ≠ 0 ∧ c2 ≠ 0 then do
      let r ← cmp c1 c2
      if r.status ≠ .success then .ok r
      else compareChildren cmp d1 d2 p1 p2 f (getNext c1 d1) (getNext c2 d2)
    else if c1 ^^^ c2 ≠ 0 then .ok ⟨.differentSizes, p1, p2⟩
    else .ok ⟨.success, p1, p2⟩

/-- `compareNode`, `src/dom/comparison.c:265-315`; the fuel bounds the recursion depth. -/
def compareNodeF (d1 d2 : Dom) : Nat → Nat → Nat → Out CResult
  | 0, _, _ => .hang
  | f + 1, n1, n2 => do
    let a ← d1.node n1
    let b ← d2.node n2
    let st ← compareTags a d1 b d2
    if st ≠ .success then .ok ⟨st, n1, n2⟩
    else do
      let st ←
        if a.type = .document then do
          let st ← compareBoolProps n1 d1 n2 d2
          if st ≠ .success then .ok st else compareProps n1 d1 n2 d2
        else .ok .success
      if st ≠ .success then .ok ⟨st, n1, n2⟩
      else
        compareChildren (compareNodeF d1 d2 f) d1 d2 n1 n2 (d1.nn.length + 2)
          (getFirstChild n1 d1) (getFirstChild n2 d2)

/-- The loop of `flo_html_equals`, `src/dom/comparison.c:323-331`, followed by its final check. -/
def equalsLoop (d1 d2 : Dom) : Nat → Nat → Nat → Out CResult
  | 0, _, _ => .hang
  | f + 1, n1, n2 =>
    if n1 ≠ 0 ∧ n2 ≠ 0 then do
      let r ← compareNodeF d1 d2 (d1.nodes.length + 1) n1 n2
      if r.status ≠ .success then .ok r
      else equalsLoop d1 d2 f (getNext n1 d1) (getNext n2 d2)
    else if n1 ^^^ n2 ≠ 0 then .ok ⟨.differentSizes, n1, n2⟩
    else .ok ⟨.success, n1, n2⟩

/-- `flo_html_equals`, `src/dom/comparison.c:317-342`.  (On success the C code leaves the node fields of the
last comparison; the model reports (0,0), which no caller reads.) -/
def equals (d1 d2 : Dom) : Out CResult := equalsLoop d1 d2 (d1.nn.length + 2) rootID rootID

/-- Re-inserting a registry into an empty map, `src/dom/dom.c:73-92`. -/
def rebuildMap : List Str → AutoMap → Out AutoMap
  | [], m => .ok m
  | s :: ss, m => do
    let r ← m.insert s
    rebuildMap ss r.map

/-- `flo_html_duplicateDom`, `src/dom/dom.c:50-95`, at the level of table contents. -/
def duplicateDom (d : Dom) : Out Dom := do
  let tm ← rebuildMap (d.tagReg.drop 1 |>.map (·.1)) .empty
  let bm ← rebuildMap (d.boolReg.drop 1) .empty
  let km ← rebuildMap (d.keyReg.drop 1) .empty
  let vm ← rebuildMap (d.valReg.drop 1) .empty
  .ok { d with tagMap := tm, boolMap := bm, keyMap := km, valMap := vm }

end Flo
