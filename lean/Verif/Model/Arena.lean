import Verif.Model.Basic
/-!
# Arena, dynamic arrays, byte buffers

Sources: `util/src/memory/arena.c`, `util/include/flo/util/array.h`, `util/include/flo/util/raw-data.h`.

Addresses and `ptrdiff_t` values are integers; memory is a function from addresses to bytes.  The address
arithmetic of the padding is done in 64-bit words as in the C code; the other sums and products are the
mathematical ones (no overflow for arenas below 2^62 bytes, see `ArenaOK` in `Spec/Memory.lean`).
`FLO_ASSERT` is empty in release builds (`util/include/flo/util/assert.h:26`), so it is not modelled.
-/
namespace Flo

/-- `flo_Arena`, `util/include/flo/util/memory/arena.h:13-18`, with the memory it hands out.  `cap` and `jmp_buf` are
not used by the allocator. -/
structure Arena where
  beg : Int
  stop : Int
  mem : Int → UInt8

/-- The bytes `[p, p + n)` are set to 0, `memset(p, 0, n)`, `util/src/memory/arena.c:24`. -/
def memZero (p n : Int) (mem : Int → UInt8) : Int → UInt8 :=
  fun x => if p ≤ x ∧ x < p + n then 0 else mem x

/-- `memcpy(dst, src, n)`, `util/src/memory/arena.c:31` (all bytes are copied at once). -/
def memCopy (dst src n : Int) (mem : Int → UInt8) : Int → UInt8 :=
  fun x => if dst ≤ x ∧ x < dst + n then mem (x - dst + src) else mem x

/-- Storing the bytes `bs` at `p` (an assignment through a pointer, e.g. `src/dom/dom.c:26`). -/
def memWrite (p : Int) (bs : List UInt8) (mem : Int → UInt8) : Int → UInt8 :=
  fun x => if p ≤ x ∧ x < p + bs.length then bs.getD (x - p).toNat 0 else mem x

/-- `-(uintptr_t)a->beg & (align - 1)`, `util/src/memory/arena.c:12`. -/
def arenaPadding (beg align : Int) : Int :=
  ((-(BitVec.ofInt 64 beg)) &&& (BitVec.ofInt 64 align - 1)).toNat

/-- `flo_alloc`, `util/src/memory/arena.c:4-25`.  The division is C's (rounding towards zero). -/
def arenaAlloc (size align count : Int) (zero nullOnFail : Bool) (a : Arena) : Out (Option Int × Arena) :=
  let avail := a.stop - a.beg
  let padding := arenaPadding a.beg align
  if count > (avail - padding).tdiv size then
    if nullOnFail then .ok (none, a) else .longjmp
  else
    let total := size * count
    let p := a.beg + padding
    .ok (some p, { a with beg := a.beg + (padding + total), mem := if zero then memZero p total a.mem else a.mem })

/-- `flo_copyToArena`, `util/src/memory/arena.c:27-33`; `data` is the address of the original. -/
def copyToArena (data size align count : Int) (a : Arena) : Out (Int × Arena) := do
  let (p, a) ← arenaAlloc size align count false false a
  match p with
  | some p => .ok (p, { a with mem := memCopy p data (size * count) a.mem })
  | none => .ub .nullDeref

/-- `FLO_DYNAMIC_ARRAY`, `util/include/flo/util/array.h:16-21`; `none` is the NULL pointer. -/
structure Arr where
  buf : Option Int
  len : Int
  cap : Int
  deriving DecidableEq, Repr

/-- An array variable initialised with zeros, e.g. the arrays of `src/dom/dom.c:24`. -/
def Arr.empty : Arr := ⟨none, 0, 0⟩

/-- `flo_grow`, `util/include/flo/util/array.h:33-50`, with flags 0 or `FLO_ZERO_MEMORY`. -/
def arrGrow (size align : Int) (zero : Bool) (s : Arr) (a : Arena) : Out (Arr × Arena) :=
  match s.buf with
  | none => do
    let (p, a) ← arenaAlloc (2 * size) align 1 zero false a
    .ok ({ s with buf := p, cap := 1 * 2 }, a)
  | some b =>
    if a.beg = b + size * s.cap then do
      let (_, a) ← arenaAlloc size 1 s.cap zero false a
      .ok ({ s with cap := s.cap * 2 }, a)
    else do
      let (p, a) ← arenaAlloc (2 * size) align s.cap zero false a
      match p with
      | some p => .ok ({ s with buf := some p, cap := s.cap * 2 }, { a with mem := memCopy p b (size * s.len) a.mem })
      | none => .ub .nullDeref

/-- The growing step of `FLO_PUSH`, `util/include/flo/util/array.h:62-64` and `71-73`. -/
def arrReserve (size align : Int) (zero : Bool) (s : Arr) (a : Arena) : Out (Arr × Arena) :=
  if s.len ≥ s.cap then arrGrow size align zero s a else .ok (s, a)

/-- `FLO_PUSH`, `util/include/flo/util/array.h:58-75`: the pointer to the new slot. -/
def arrPush (size align : Int) (zero : Bool) (s : Arr) (a : Arena) : Out (Int × Arr × Arena) := do
  let (s, a) ← arrReserve size align zero s a
  match s.buf with
  | some b => .ok (b + size * s.len, { s with len := s.len + 1 }, a)
  | none => .ub .nullDeref

/-- `*FLO_PUSH(&s, a) = e`, e.g. `src/dom/dom.c:26`, where `e` is given by its bytes. -/
def arrPushElem (size align : Int) (zero : Bool) (e : List UInt8) (s : Arr) (a : Arena) : Out (Arr × Arena) := do
  let (p, s, a) ← arrPush size align zero s a
  .ok (s, { a with mem := memWrite p e a.mem })

/-- `s.buf[k] = e`, e.g. `src/dom/modification.c:88`. -/
def arrSet (size : Int) (k : Int) (e : List UInt8) (s : Arr) (a : Arena) : Out Arena :=
  match s.buf with
  | some b => .ok { a with mem := memWrite (b + size * k) e a.mem }
  | none => .ub .nullDeref

/-- `FLO_COPY_DYNAMIC_ARRAY`, `util/include/flo/util/array.h:52-56`.  Copying from a NULL pointer copies 0 bytes. -/
def arrCopy (size align : Int) (s : Arr) (a : Arena) : Out (Arr × Arena) := do
  let (p, a) ← arenaAlloc size align s.len false false a
  match p, s.buf with
  | some p, some b => .ok (⟨some p, s.len, s.len⟩, { a with mem := memCopy p b (s.len * size) a.mem })
  | some p, none => .ok (⟨some p, s.len, s.len⟩, a)
  | none, _ => .ub .nullDeref

/-- The allocation step of `flo_addRawData`, `util/include/flo/util/raw-data.h:16-33`. -/
def rawReserve (n : Int) (s : Arr) (a : Arena) : Out (Arr × Arena) :=
  if s.len + n > s.cap then
    let newCap := (s.len + n) * 2
    match s.buf with
    | none => do
      let (p, a) ← arenaAlloc 1 1 newCap false false a
      .ok ({ s with buf := p, cap := newCap }, a)
    | some b =>
      if a.stop = b - s.cap then do
        let (_, a) ← arenaAlloc 1 1 newCap false false a
        .ok ({ s with cap := newCap }, a)
      else do
        let (p, a) ← arenaAlloc 1 1 newCap false false a
        match p with
        | some p => .ok ({ s with buf := some p, cap := newCap }, { a with mem := memCopy p b s.len a.mem })
        | none => .ub .nullDeref
  else .ok (s, a)

/-- `flo_addRawData`, `util/include/flo/util/raw-data.h:14-36`.  Appending nothing to a NULL buffer copies 0 bytes. -/
def rawAdd (data : List UInt8) (s : Arr) (a : Arena) : Out (Arr × Arena) := do
  let (s, a) ← rawReserve data.length s a
  match s.buf with
  | some b => .ok ({ s with len := s.len + data.length }, { a with mem := memWrite (b + s.len) data a.mem })
  | none => if data = [] then .ok (s, a) else .ub .nullDeref

end Flo
