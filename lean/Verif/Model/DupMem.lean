import Verif.Model.DomMem
import Verif.Model.Compare
/-!
# Duplicating a DOM in the arena's memory

Source: `src/dom/dom.c:50-95`, `util/include/flo/util/array.h:52-56`.  The representation is that of `Model/DomMem.lean`.
-/
namespace Flo

/-- Copying the nodes, `src/dom/dom.c:53`. -/
def copyNodes (src M : MDom) (a : Arena) : Out (MDom × Arena) := do
  let (s, a) ← arrCopy 24 8 src.nodes a
  .ok ({ M with nodes := s }, a)

/-- Copying the first children, `src/dom/dom.c:54-55`. -/
def copyFc (src M : MDom) (a : Arena) : Out (MDom × Arena) := do
  let (s, a) ← arrCopy 4 2 src.fc a
  .ok ({ M with fc := s }, a)

/-- Copying the children, `src/dom/dom.c:56-57`. -/
def copyPc (src M : MDom) (a : Arena) : Out (MDom × Arena) := do
  let (s, a) ← arrCopy 4 2 src.pc a
  .ok ({ M with pc := s }, a)

/-- Copying the next nodes, `src/dom/dom.c:58-59`. -/
def copyNn (src M : MDom) (a : Arena) : Out (MDom × Arena) := do
  let (s, a) ← arrCopy 4 2 src.nn a
  .ok ({ M with nn := s }, a)

/-- Copying the boolean properties, `src/dom/dom.c:60-61`. -/
def copyBoolProps (src M : MDom) (a : Arena) : Out (MDom × Arena) := do
  let (s, a) ← arrCopy 4 2 src.boolProps a
  .ok ({ M with boolProps := s }, a)

/-- Copying the properties, `src/dom/dom.c:62`. -/
def copyProps (src M : MDom) (a : Arena) : Out (MDom × Arena) := do
  let (s, a) ← arrCopy 6 2 src.props a
  .ok ({ M with props := s }, a)

/-- Copying the tag names, `src/dom/dom.c:64-65`. -/
def copyTagReg (src M : MDom) (a : Arena) : Out (MDom × Arena) := do
  let (s, a) ← arrCopy 24 8 src.tagReg a
  .ok ({ M with tagReg := s }, a)

/-- Copying the names of boolean properties, `src/dom/dom.c:66-67`. -/
def copyBoolReg (src M : MDom) (a : Arena) : Out (MDom × Arena) := do
  let (s, a) ← arrCopy 16 8 src.boolReg a
  .ok ({ M with boolReg := s }, a)

/-- Copying the keys, `src/dom/dom.c:68-69`. -/
def copyKeyReg (src M : MDom) (a : Arena) : Out (MDom × Arena) := do
  let (s, a) ← arrCopy 16 8 src.keyReg a
  .ok ({ M with keyReg := s }, a)

/-- Copying the values, `src/dom/dom.c:70-71`. -/
def copyValReg (src M : MDom) (a : Arena) : Out (MDom × Arena) := do
  let (s, a) ← arrCopy 16 8 src.valReg a
  .ok ({ M with valReg := s }, a)

/-- The structure and its tables, `src/dom/dom.c:51-71`. -/
def memCopyTables (src : MDom) (a : Arena) : Out (MDom × Arena) := do
  let (_, a) ← arenaAlloc 304 8 1 true false a
  let (M, a) ← copyNodes src .zero a
  let (M, a) ← copyFc src M a
  let (M, a) ← copyPc src M a
  let (M, a) ← copyNn src M a
  let (M, a) ← copyBoolProps src M a
  let (M, a) ← copyProps src M a
  let (M, a) ← copyTagReg src M a
  let (M, a) ← copyBoolReg src M a
  let (M, a) ← copyKeyReg src M a
  copyValReg src M a

/-- A loop of `src/dom/dom.c:74-92`: `n` entries of the registry, from `i` on, are inserted into the map.  The name is the first member
of an entry of `size` bytes. -/
def memRebuild (size : Int) (reg : Arr) : Nat → Nat → MMap → Arena → Out (MMap × Arena)
  | 0, _, m, a => .ok (m, a)
  | n + 1, i, m, a =>
    match reg.buf with
    | none => .ub .nullDeref
    | some b => do
      let r ← memInsertMap (loadStr a.mem (b + size * (i : Int))) m a
      memRebuild size reg n (i + 1) r.map r.arena

/-- Entry 0 of a registry is skipped, `src/dom/dom.c:73-77`. -/
def memRebuildTag (M : MDom) (a : Arena) : Out (MDom × Arena) := do
  let (m, a) ← memRebuild 24 M.tagReg (M.tagReg.len.toNat - 1) 1 M.tagMap a
  .ok ({ M with tagMap := m }, a)

/-- `src/dom/dom.c:79-82`. -/
def memRebuildBool (M : MDom) (a : Arena) : Out (MDom × Arena) := do
  let (m, a) ← memRebuild 16 M.boolReg (M.boolReg.len.toNat - 1) 1 M.boolMap a
  .ok ({ M with boolMap := m }, a)

/-- `src/dom/dom.c:84-87`. -/
def memRebuildKey (M : MDom) (a : Arena) : Out (MDom × Arena) := do
  let (m, a) ← memRebuild 16 M.keyReg (M.keyReg.len.toNat - 1) 1 M.keyMap a
  .ok ({ M with keyMap := m }, a)

/-- `src/dom/dom.c:89-92`. -/
def memRebuildVal (M : MDom) (a : Arena) : Out (MDom × Arena) := do
  let (m, a) ← memRebuild 16 M.valReg (M.valReg.len.toNat - 1) 1 M.valMap a
  .ok ({ M with valMap := m }, a)

/-- `flo_html_duplicateDom`, `src/dom/dom.c:50-95`. -/
def memDuplicate (src : MDom) (a : Arena) : Out (MDom × Arena) := do
  let (M, a) ← memCopyTables src a
  let (M, a) ← memRebuildTag M a
  let (M, a) ← memRebuildBool M a
  let (M, a) ← memRebuildKey M a
  memRebuildVal M a

end Flo
