import Verif.Model.Hash
/-!
# Open-addressing hash sets ("MSI")

Sources: `util/include/flo/util/hash/msi/common.h`, `util/src/hash/msi/{common,uint16-set,string-set}.c`,
`src/dom/query/msi-uint16.c`.
-/
namespace Flo

/-- `FLO_MSI_SET(T)`, `util/include/flo/util/hash/msi/common.h:46-51`: `2^exp` slots, of which the ones
holding `nil` (0, or a string of length 0) are free. -/
structure Msi (α : Type) where
  exp : Nat
  len : Nat
  buf : List α
  deriving DecidableEq, Repr

/-- `FLO_NEW_MSI_SET` / `flo_msi_newSet` on a NULL buffer, `util/src/hash/msi/common.c:7-32`:
`1 << exp` zeroed slots.  (The two branches for a non-NULL buffer are never used by the library.) -/
def Msi.new {α : Type} (nil : α) (exp : Nat) : Out (Msi α) :=
  if exp ≥ 31 then .longjmp
  else .ok { exp := exp, len := 0, buf := List.replicate (2 ^ exp) nil }

/-- `flo_indexLookup`, `util/include/flo/util/hash/msi/common.h:65-70`, on 32-bit unsigned integers. -/
def indexLookup (hash : UInt64) (exp : Nat) (idx : UInt32) : UInt32 :=
  let mask : UInt32 := ((1 : UInt32) <<< UInt32.ofNat exp) - 1
  let step : UInt32 := (hash >>> UInt64.ofNat (64 - exp)).toUInt32 ||| 1
  (idx + step) &&& mask

/-- The loop of `flo_msi_insertUint16` / `flo_msi_insertString` (`util/src/hash/msi/uint16-set.c:3-14`,
`util/src/hash/msi/string-set.c:5-17`). -/
def msiInsertLoop {α : Type} [DecidableEq α] (nil v : α) (hash : UInt64) :
    Nat → UInt32 → Msi α → Out (Bool × Msi α)
  | 0, _, _ => .hang
  | f + 1, i, m =>
    let i := indexLookup hash m.exp i
    match m.buf[i.toNat]? with
    | none => .ub .oobIndex
    | some x =>
      if x = nil then .ok (true, { m with len := m.len + 1, buf := m.buf.set i.toNat v })
      else if x = v then .ok (false, m)
      else msiInsertLoop nil v hash f i m

/-- `flo_msi_insertUint16` (`util/src/hash/msi/uint16-set.c:3-14`), `flo_msi_insertString`
(`util/src/hash/msi/string-set.c:5-17`): probing starts at `(int32_t)hash`.  The fuel is one
more than the number of slots. -/
def msiInsert {α : Type} [DecidableEq α] (nil v : α) (hash : UInt64) (m : Msi α) : Out (Bool × Msi α) :=
  msiInsertLoop nil v hash (2 ^ m.exp + 1) hash.toUInt32 m

/-- The loop of `flo_msi_containsUint16` / `flo_msi_containsString` (`util/src/hash/msi/uint16-set.c:16-26`,
`util/src/hash/msi/string-set.c:19-29`). -/
def msiContainsLoop {α : Type} [DecidableEq α] (nil v : α) (hash : UInt64) (m : Msi α) :
    Nat → UInt32 → Out Bool
  | 0, _ => .hang
  | f + 1, i =>
    let i := indexLookup hash m.exp i
    match m.buf[i.toNat]? with
    | none => .ub .oobIndex
    | some x =>
      if x = nil then .ok false
      else if x = v then .ok true
      else msiContainsLoop nil v hash m f i

/-- `flo_msi_containsUint16` (`util/src/hash/msi/uint16-set.c:16-26`), `flo_msi_containsString`
(`util/src/hash/msi/string-set.c:19-29`). -/
def msiContains {α : Type} [DecidableEq α] (nil v : α) (hash : UInt64) (m : Msi α) : Out Bool :=
  msiContainsLoop nil v hash m (2 ^ m.exp + 1) hash.toUInt32

/-- `FLO_FOR_EACH_MSI_UINT16` / `FLO_FOR_EACH_MSI_STRING`
(`util/include/flo/util/hash/msi/uint16-set.h:21-23`, `util/include/flo/util/hash/msi/string-set.h:32-34`): the occupied slots in order. -/
def Msi.toList {α : Type} [DecidableEq α] (nil : α) (m : Msi α) : List α := m.buf.filter (· ≠ nil)

/-! ## The growing set of node identifiers, `src/dom/query/msi-uint16.c` -/

/-- `flo_msi_Uint16`, `util/include/flo/util/hash/msi/uint16-set.h:12`; values are 16-bit identifiers kept as `Nat`, 0 marks a free slot. -/
abbrev U16Set := Msi Nat

/-- `flo_hash16_xm3(value)` widened to `size_t`, `src/dom/query/msi-uint16.c:10,24`. -/
def hashID (v : Nat) : UInt64 := (hash16 (UInt16.ofNat v)).toUInt64

/-- `FLO_NEW_MSI_SET(flo_msi_Uint16, FLO_MSI_HTML_STARTING_EXPONENT, ..)`,
`include/flo/html-parser/dom/query/msi-uint16.h:8`. -/
def U16Set.fresh : U16Set := { exp := 7, len := 0, buf := List.replicate 128 0 }

/-- The loop of `rehashIndex`, `src/dom/query/msi-uint16.c:5-13`, over the old slots; `h` is the hash
function (`flo_hash16_xm3` in the code). -/
def rehashLoopWith (h : Nat → UInt64) : List Nat → U16Set → Out U16Set
  | [], m => .ok m
  | v :: vs, m =>
    if v ≠ 0 then do
      let (_, m) ← msiInsert 0 v (h v) m
      rehashLoopWith h vs m
    else rehashLoopWith h vs m

/-- The growing step of `flo_msi_html_uint16Insert`, `src/dom/query/msi-uint16.c:17-23`: at half load the
slots are doubled. -/
def u16Grow (h : Nat → UInt64) (m : U16Set) : Out U16Set :=
  if m.len ≥ 2 ^ m.exp / 2 then do
    let n ← Msi.new 0 (m.exp + 1)
    rehashLoopWith h m.buf n
  else .ok m

/-- `flo_msi_html_uint16Insert`, `src/dom/query/msi-uint16.c:15-25`; `h` is the hash function. -/
def u16InsertWith (h : Nat → UInt64) (v : Nat) (m : U16Set) : Out U16Set := do
  let m ← u16Grow h m
  let (_, m) ← msiInsert 0 v (h v) m
  .ok m

/-- `flo_msi_html_uint16Insert`, `src/dom/query/msi-uint16.c:15-25`, with the hash function of the code. -/
def u16Insert (v : Nat) (m : U16Set) : Out U16Set := u16InsertWith hashID v m

/-- `flo_msi_html_resetUint16`, `src/dom/query/msi-uint16.c:27-32`. -/
def u16Reset (m : U16Set) : U16Set := { m with len := 0, buf := List.replicate (2 ^ m.exp) 0 }

/-- `flo_msi_containsUint16(v, flo_hash16_xm3(v), m)`, `src/dom/query/query-util.c:128-130`. -/
def u16Contains (v : Nat) (m : U16Set) : Out Bool := msiContains 0 v (hashID v) m

/-- Inserting a sequence of values, `src/dom/query/query.c:315-318`. -/
def u16InsertAll : List Nat → U16Set → Out U16Set
  | [], m => .ok m
  | v :: vs, m => do
    let m ← u16Insert v m
    u16InsertAll vs m

/-- `flo_msi_html_toArray`, `src/dom/query/msi-uint16.c:34-44`: the array has `len` cells, filled with the
occupied slots; if `len` differs from the number of occupied slots, cells stay uninitialised or are written
past the end. -/
def u16ToArray (m : U16Set) : Out (List Nat) :=
  if (m.toList 0).length = m.len then .ok (m.toList 0) else .ub .oobIndex

/-! ## The fixed string set used by comparisons -/

/-- `flo_msi_String`, `util/include/flo/util/hash/msi/string-set.h:12`; a string of length 0 marks a free slot. -/
abbrev StrSet := Msi Str

end Flo
