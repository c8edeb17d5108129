import Verif.Model.Arena
/-!
# What arenas, dynamic arrays and byte buffers promise
-/
namespace Flo.Spec

/-- A usable arena: a range of addresses below 2^62. -/
def ArenaOK (a : Arena) : Prop := 0 ≤ a.beg ∧ a.beg ≤ a.stop ∧ a.stop < 2 ^ 62

/-- Powers of two that fit a pointer. -/
def IsAlign (n : Int) : Prop := ∃ k : Nat, k ≤ 62 ∧ n = 2 ^ k

/-- An allocation request. -/
structure Req where
  size : Int
  align : Int
  count : Int
  zero : Bool
  nullOnFail : Bool

def Req.Valid (r : Req) : Prop := 0 < r.size ∧ IsAlign r.align ∧ 0 ≤ r.count

/-- The number of bytes asked for. -/
def Req.bytes (r : Req) : Int := r.size * r.count

/-- A sequence of allocations; the result lists the returned pointers. -/
def runAllocs : List Req → Arena → Out (List (Option Int) × Arena)
  | [], a => .ok ([], a)
  | r :: rs, a => do
    let (p, a) ← arenaAlloc r.size r.align r.count r.zero r.nullOnFail a
    let (ps, a) ← runAllocs rs a
    .ok (p :: ps, a)

/-- There is room for the request: an aligned address at or after the current position, with enough bytes behind it. -/
def Fits (a : Arena) (r : Req) : Prop := ∃ p, a.beg ≤ p ∧ p % r.align = 0 ∧ p + r.bytes ≤ a.stop

/-! ## Arrays in one arena -/

/-- Size and alignment of the elements of an array. -/
structure Kind where
  size : Int
  align : Int
  deriving DecidableEq, Repr

def Kind.OK (k : Kind) : Prop := 0 < k.size ∧ IsAlign k.align ∧ k.align ∣ k.size

/-- An element is given by its bytes. -/
abbrev Elem := List UInt8

/-- The `n` bytes at `p`. -/
def bytesAt (mem : Int → UInt8) (p : Int) (n : Nat) : Elem := (List.range n).map (fun (i : Nat) => mem (p + (i : Int)))

/-- The elements of an array, read from memory. -/
def readArr (mem : Int → UInt8) (k : Kind) (s : Arr) : List Elem :=
  match s.buf with
  | none => []
  | some b => (List.range s.len.toNat).map (fun (t : Nat) => bytesAt mem (b + k.size * (t : Int)) k.size.toNat)

/-- A program's arrays, all in one arena. -/
structure Heap where
  arena : Arena
  arrs : List (Kind × Arr)

/-- What a program does with arrays. -/
inductive HOp
  | new (k : Kind)
  | push (i : Nat) (zero : Bool) (e : Elem)
  | set (i t : Nat) (e : Elem)
  | copy (i : Nat)
  | append (i : Nat) (data : List UInt8)
  | alloc (r : Req)

/-- Running one step on the heap. -/
def runH (op : HOp) (h : Heap) : Out Heap :=
  match op with
  | .new k => .ok { h with arrs := h.arrs ++ [(k, Arr.empty)] }
  | .push i zero e =>
    match h.arrs[i]? with
    | none => .ok h
    | some (k, s) => do
      let (s, a) ← arrPushElem k.size k.align zero e s h.arena
      .ok ⟨a, h.arrs.set i (k, s)⟩
  | .set i t e =>
    match h.arrs[i]? with
    | none => .ok h
    | some (k, s) => do
      let a ← arrSet k.size t e s h.arena
      .ok ⟨a, h.arrs⟩
  | .copy i =>
    match h.arrs[i]? with
    | none => .ok h
    | some (k, s) => do
      let (s, a) ← arrCopy k.size k.align s h.arena
      .ok ⟨a, h.arrs ++ [(k, s)]⟩
  | .append i data =>
    match h.arrs[i]? with
    | none => .ok h
    | some (k, s) => do
      let (s, a) ← rawAdd data s h.arena
      .ok ⟨a, h.arrs.set i (k, s)⟩
  | .alloc r => do
    let (_, a) ← arenaAlloc r.size r.align r.count r.zero r.nullOnFail h.arena
    .ok { h with arena := a }

/-- The same step on plain lists. -/
def absH (op : HOp) (vs : List (List Elem)) : List (List Elem) :=
  match op with
  | .new _ => vs ++ [[]]
  | .push i _ e => vs.modify i (· ++ [e])
  | .set i t e => vs.modify i (·.set t e)
  | .copy i => vs ++ [vs.getD i []]
  | .append i data => vs.modify i (· ++ data.map (fun c => [c]))
  | .alloc _ => vs

/-- Preconditions: indices in range, elements of the right size, copies of arrays that are not empty. -/
def HOp.Valid (op : HOp) (h : Heap) (vs : List (List Elem)) : Prop :=
  match op with
  | .new k => k.OK
  | .push i _ e => ∃ k s, h.arrs[i]? = some (k, s) ∧ (e.length : Int) = k.size
  | .set i t e => ∃ k s, h.arrs[i]? = some (k, s) ∧ (e.length : Int) = k.size ∧ t < (vs.getD i []).length
  | .copy i => i < h.arrs.length ∧ vs.getD i [] ≠ []
  | .append i _ => ∃ s, h.arrs[i]? = some (⟨1, 1⟩, s)
  | .alloc r => r.Valid

/-- `Hist a h vs`: the heap `h` was reached by valid steps from the arena `a` without arrays; `vs` is what a program
that works with plain lists would have. -/
inductive Hist (a : Arena) : Heap → List (List Elem) → Prop
  | start : ArenaOK a → Hist a ⟨a, []⟩ []
  | step {h h' : Heap} {vs : List (List Elem)} {op : HOp} : Hist a h vs → op.Valid h vs → runH op h = .ok h' →
      Hist a h' (absH op vs)

/-- An upper bound for the free bytes a step needs, for an array of the given kind and number of elements: growing takes
at most twice the room of the elements there will be; alignment costs less than `align` bytes. -/
def HOp.need (op : HOp) (h : Heap) (vs : List (List Elem)) : Int :=
  match op with
  | .push i _ _ =>
    match h.arrs[i]? with
    | some (k, _) => 2 * k.size * max 1 ((vs.getD i []).length : Int) + k.align
    | none => 0
  | .copy i =>
    match h.arrs[i]? with
    | some (k, _) => k.size * ((vs.getD i []).length : Int) + k.align
    | none => 0
  | .append i data => 2 * (((vs.getD i []).length : Int) + data.length) + 1
  | .alloc r => if r.nullOnFail then 0 else r.bytes + r.align
  | _ => 0

/-- The array a step writes to. -/
def HOp.target : HOp → Option Nat
  | .push i _ _ => some i
  | .set i _ _ => some i
  | .append i _ => some i
  | _ => none

/-- A sequence of steps. -/
def runHs : List HOp → Heap → Out Heap
  | [], h => .ok h
  | op :: ops, h => do
    let h ← runH op h
    runHs ops h

/-- Every step of the sequence is valid when its turn comes. -/
def AllValid : List HOp → Heap → List (List Elem) → Prop
  | [], _, _ => True
  | op :: ops, h, vs => op.Valid h vs ∧ ∀ h', runH op h = .ok h' → AllValid ops h' (absH op vs)

end Flo.Spec
