import Verif.Model.Buddy
/-!
# What the buddy allocator promises
-/
namespace Flo.Spec

/-- Memory the allocator can be created on: a power of two of at least 32 bytes. -/
structure BuddyArgs (total : Nat) : Prop where
  pow : ∃ k : Nat, 5 ≤ k ∧ k ≤ 62 ∧ total = 2 ^ k

/-- A block a program owns: its address and the number of bytes it asked for. -/
structure Owned where
  ptr : Int
  bytes : Nat
  deriving DecidableEq, Repr

/-- `BHist data total b live`: the allocator was created on the memory at `data` and used in any way a program may use it:
blocks were allocated (requests below 2^62 bytes) and freed (each only once), and the program wrote anything into the bytes it
owned.  `live` are the blocks it owns now. -/
inductive BHist (data : Int) (total : Nat) : Buddy → List Owned → Prop
  | create {mem : Int → UInt8} : BHist data total (createBuddy data total mem) []
  | alloc {b b' : Buddy} {live : List Owned} {size count : Nat} {zero nof : Bool} {p : Int} : BHist data total b live →
      size * count < 2 ^ 62 → buddyAlloc size count zero nof b = .ok (some p, b') →
      BHist data total b' (⟨p, size * count⟩ :: live)
  | allocFailed {b b' : Buddy} {live : List Owned} {size count : Nat} {zero nof : Bool} : BHist data total b live →
      size * count < 2 ^ 62 → buddyAlloc size count zero nof b = .ok (none, b') → BHist data total b' live
  | free {b b' : Buddy} {live : List Owned} {o : Owned} : BHist data total b live → o ∈ live → freeBuddy o.ptr b = .ok b' →
      BHist data total b' (live.erase o)
  | write {b : Buddy} {live : List Owned} {o : Owned} {q : Int} {bs : List UInt8} : BHist data total b live → o ∈ live →
      o.ptr ≤ q → q + bs.length ≤ o.ptr + o.bytes → BHist data total { b with mem := memWrite q bs b.mem } live

/-- `Fill data total n b live`: a fresh allocator was only asked for blocks of `n` bytes, which it granted, and the program wrote
anything into the bytes it owned. -/
inductive Fill (data : Int) (total n : Nat) : Buddy → List Owned → Prop
  | create {mem : Int → UInt8} : Fill data total n (createBuddy data total mem) []
  | alloc {b b' : Buddy} {live : List Owned} {size count : Nat} {zero nof : Bool} {p : Int} : Fill data total n b live →
      size * count = n → buddyAlloc size count zero nof b = .ok (some p, b') → Fill data total n b' (⟨p, n⟩ :: live)
  | write {b : Buddy} {live : List Owned} {o : Owned} {q : Int} {bs : List UInt8} : Fill data total n b live → o ∈ live →
      o.ptr ≤ q → q + bs.length ≤ o.ptr + o.bytes → Fill data total n { b with mem := memWrite q bs b.mem } live

/-- The size of the blocks `n` bytes are taken from: the largest power of two that is at most twice `n` and the header of 16 bytes,
or all the memory if that is smaller. -/
inductive BlockFor (total n s : Nat) : Prop
  | part (k : Nat) : s = 2 ^ k → s ≤ 2 * (n + 16) → 2 * (n + 16) < 2 * s → s ≤ total → BlockFor total n s
  | whole : s = total → total ≤ 2 * (n + 16) → n + 16 ≤ total → BlockFor total n s

/-- Memory that is `inside` from `lo` up to `hi`, and `outside` elsewhere. -/
def mix (lo hi : Int) (inside outside : Int → UInt8) : Int → UInt8 := fun x => if lo ≤ x ∧ x < hi then inside x else outside x

end Flo.Spec
