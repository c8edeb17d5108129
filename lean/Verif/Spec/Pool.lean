import Verif.Model.Pool
/-!
# What the pool allocator promises
-/
namespace Flo.Spec

/-- The number of chunks. -/
def chunkCount (cap chunk : Int) : Nat := (cap / chunk).toNat

/-- The addresses of the chunks. -/
def chunks (beg cap chunk : Int) : List Int := (List.range (chunkCount cap chunk)).map (fun (i : Nat) => beg + (i : Int) * chunk)

/-- A buffer the pool can be created on: chunks larger than a pointer, addresses that fit a pointer and are not NULL. -/
structure PoolArgs (buffer cap chunk : Int) : Prop where
  notNull : 0 < buffer
  stop : buffer + cap < 2 ^ 64
  large : 8 < chunk
  fits : chunk ≤ cap

/-- `PHist buffer cap chunk pool live`: the pool was created on the buffer, and used in any way a program may use it:
chunks were allocated and freed (each only once), and the program wrote anything into the chunks it owned.  `live` are the
chunks the program owns now. -/
inductive PHist (buffer cap chunk : Int) : Pool → List Int → Prop
  | create {mem : Int → UInt8} : PHist buffer cap chunk (createPool buffer cap chunk mem) []
  | alloc {pool pool' : Pool} {live : List Int} {zero nof : Bool} {p : Int} : PHist buffer cap chunk pool live →
      poolAlloc zero nof pool = .ok (some p, pool') → PHist buffer cap chunk pool' (p :: live)
  | free {pool : Pool} {live : List Int} {p : Int} : PHist buffer cap chunk pool live → p ∈ live →
      PHist buffer cap chunk (freePoolNode p pool) (live.erase p)
  | write {pool : Pool} {live : List Int} {p q : Int} {data : List UInt8} : PHist buffer cap chunk pool live → p ∈ live →
      p ≤ q → q + data.length ≤ p + chunk →
      PHist buffer cap chunk { pool with mem := memWrite q data pool.mem } live

end Flo.Spec
