import Verif.Spec.Buddy
/-!
# The buddy allocator as a machine on lists of blocks

The memory an allocator manages is cut into blocks, one behind the other.  A state of the machine is the list of their sizes
(header included), each with the remark whether the block is free.  Places are counted in bytes from the start of the memory.
-/
namespace Flo.Spec.Blocks

/-- A block: its size, header included, and whether it is free. -/
structure Piece where
  size : Nat
  free : Bool
  deriving DecidableEq, Repr

/-- The blocks found in memory by walking from the header at `p` to the end `t`. -/
def Laid (mem : Int → UInt8) (t : Int) : Int → List Piece → Prop
  | p, [] => p = t
  | p, x :: r => p < t ∧ bSize mem p = x.size ∧ bFree mem p = x.free ∧ Laid mem t (p + x.size) r

/-- The best block so far (its place and its size) after the block at `off` has got the size `s`. -/
def grow (off s : Nat) : Option (Nat × Nat) → Option (Nat × Nat)
  | none => none
  | some (o, b) => if o = off then some (off, s) else some (o, b)

/-- Replace the best block so far by the free block at `off` of the size `s`, if `n` bytes fit and it is smaller. -/
def smaller (n off s : Nat) : Option (Nat × Nat) → Option (Nat × Nat)
  | none => if n ≤ s then some (off, s) else none
  | some (o, b) => if n ≤ s ∧ s < b then some (off, s) else some (o, b)

/-- The same, if it is not larger. -/
def noLarger (n off s : Nat) : Option (Nat × Nat) → Option (Nat × Nat)
  | none => if n ≤ s then some (off, s) else none
  | some (o, b) => if n ≤ s ∧ s ≤ b then some (off, s) else some (o, b)

/-- The search for a block of `n` bytes, starting at the place `off`: it looks at pairs of neighbours, joins them if they are
free and of equal size, and remembers the smallest free block that is large enough.  A block that is left alone at the end is
not looked at. -/
def search (n : Nat) : Nat → List Piece → Option (Nat × Nat) → List Piece × Option (Nat × Nat)
  | off, x :: y :: r, best =>
    if x.free = true ∧ y.free = true ∧ x.size = y.size then
      let s := x.size * 2
      let q := search n (off + s) r (noLarger n off s (grow off s best))
      (⟨s, true⟩ :: q.1, q.2)
    else
      let best := if x.free = true then smaller n off x.size best else best
      let best := if y.free = true then smaller n (off + x.size) y.size best else best
      if x.size < y.size then
        let q := search n (off + x.size + y.size) r best
        (x :: y :: q.1, q.2)
      else
        let q := search n (off + x.size) (y :: r) best
        (x :: q.1, q.2)
  | _, l, best => (l, best)

/-- Halving a block of `s` bytes as long as its half is larger than `n`: the halves that stay free, and the size of the last one.
(Sizes are below 2^64, so `f = 64` halvings are always enough.) -/
def halve (n : Nat) : Nat → Nat → List Piece × Nat
  | 0, s => ([], s)
  | f + 1, s =>
    if n * 2 < s then
      let q := halve n f (s / 2)
      (⟨s / 2, true⟩ :: q.1, q.2)
    else ([], s)

/-- Take `n` bytes from the block at the place `o`: the block is halved, and the last part is in use from now on. -/
def take (n o : Nat) : Nat → List Piece → List Piece
  | _, [] => []
  | off, x :: r =>
    if off = o then (halve n 64 x.size).1 ++ ⟨(halve n 64 x.size).2, false⟩ :: r
    else x :: take n o (off + x.size) r

/-- Looking for `n` bytes: the blocks afterwards and, if it was found, the place of the block that is now in use. -/
def find (n : Nat) : List Piece → List Piece × Option Nat
  | [x] =>
    if x.free = true ∧ n ≤ x.size then (take n 0 0 [x], some (x.size - (halve n 64 x.size).2)) else ([x], none)
  | l =>
    match search n 0 l none with
    | (l', some (o, s)) => (take n o 0 l', some (o + (s - (halve n 64 s).2)))
    | (l', none) => (l', none)

/-- One pass over all blocks that joins free neighbours of equal size, and whether it joined a pair with blocks behind it. -/
def join : List Piece → List Piece × Bool
  | x :: y :: r =>
    if x.size < y.size then (x :: y :: (join r).1, (join r).2)
    else if y.size < x.size then (x :: (join (y :: r)).1, (join (y :: r)).2)
    else if x.free = true ∧ y.free = true then (⟨x.size * 2, true⟩ :: (join r).1, !r.isEmpty || (join r).2)
    else (x :: y :: (join r).1, (join r).2)
  | l => (l, false)

/-- Passes until one of them joins nothing, or only the last two blocks. -/
def joinAll : Nat → List Piece → List Piece
  | 0, l => l
  | f + 1, l => if (join l).2 = true then joinAll f (join l).1 else (join l).1

/-- Passes over a list of blocks; there are never more than blocks. -/
def joined (l : List Piece) : List Piece := joinAll l.length l

/-- A request for `n` bytes: a search, and if it fails a second one after joining. -/
def request (n : Nat) (l : List Piece) : List Piece × Option Nat :=
  match find (n + 16) l with
  | (l', some o) => (l', some (o + 16))
  | (l', none) =>
    match find (n + 16) (joined l') with
    | (l'', some o) => (l'', some (o + 16))
    | (l'', none) => (l'', none)

/-- The block at the place `o` is not in use any more. -/
def release (o : Nat) : Nat → List Piece → List Piece
  | _, [] => []
  | off, x :: r => if off = o then ⟨x.size, true⟩ :: r else x :: release o (off + x.size) r

/-- Giving back the bytes at the place `o`. -/
def giveBack (o : Nat) (l : List Piece) : List Piece := joined (release (o - 16) 0 l)

/-- What a program asks an allocator for. -/
inductive Req
  /-- this many bytes -/
  | ask (bytes : Nat)
  /-- to take back the bytes at this place -/
  | give (place : Nat)
  deriving DecidableEq, Repr

/-- The machine: the blocks and the answers (places, none for a refusal) after a sequence of requests, the latest first. -/
def replay (total : Nat) : List Req → List Piece × List (Option Nat)
  | [] => ([⟨total, true⟩], [])
  | .ask n :: rs =>
    let q := replay total rs
    ((request n q.1).1, (request n q.1).2 :: q.2)
  | .give o :: rs =>
    let q := replay total rs
    (giveBack o q.1, q.2)

/-- `Trace data total reqs answers b live`: as `BHist`, with the requests of the program and the answers of the allocator (the
latest first).  What the program writes into its blocks is not part of the requests. -/
inductive Trace (data : Int) (total : Nat) : List Req → List (Option Int) → Buddy → List Owned → Prop
  | create {mem : Int → UInt8} : Trace data total [] [] (createBuddy data total mem) []
  | alloc {rs : List Req} {as : List (Option Int)} {b b' : Buddy} {live : List Owned} {size count : Nat} {zero nof : Bool} {p : Int} :
      Trace data total rs as b live → size * count < 2 ^ 62 → buddyAlloc size count zero nof b = .ok (some p, b') →
      Trace data total (.ask (size * count) :: rs) (some p :: as) b' (⟨p, size * count⟩ :: live)
  | allocFailed {rs : List Req} {as : List (Option Int)} {b b' : Buddy} {live : List Owned} {size count : Nat} {zero nof : Bool} :
      Trace data total rs as b live → size * count < 2 ^ 62 → buddyAlloc size count zero nof b = .ok (none, b') →
      Trace data total (.ask (size * count) :: rs) (none :: as) b' live
  | free {rs : List Req} {as : List (Option Int)} {b b' : Buddy} {live : List Owned} {o : Owned} :
      Trace data total rs as b live → o ∈ live → freeBuddy o.ptr b = .ok b' →
      Trace data total (.give (o.ptr - data).toNat :: rs) as b' (live.erase o)
  | write {rs : List Req} {as : List (Option Int)} {b : Buddy} {live : List Owned} {o : Owned} {q : Int} {bs : List UInt8} :
      Trace data total rs as b live → o ∈ live → o.ptr ≤ q → q + bs.length ≤ o.ptr + o.bytes →
      Trace data total rs as { b with mem := memWrite q bs b.mem } live

/-- `Retried n b b'`: the allocator was asked for `n` bytes again and again, and refused each time. -/
inductive Retried (n : Nat) (b : Buddy) : Buddy → Prop
  | start : Retried n b b
  | again {b' b'' : Buddy} {zero : Bool} : Retried n b b' → buddyAlloc n 1 zero true b' = .ok (none, b'') → Retried n b b''

end Flo.Spec.Blocks
