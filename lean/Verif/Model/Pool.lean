import Verif.Model.Arena
/-!
# Pool allocator

Source: `util/src/memory/pool-allocator.c`.  The free list lives in the pool's own memory: the first eight bytes of a free
chunk hold the address of the next free chunk, 0 at the end.
-/
namespace Flo

/-- The bytes of a 64-bit word, least significant first (the representation of pointers and `size_t` in memory; no
counterpart in the C code). -/
def le64 (v : Nat) : List UInt8 := (List.range 8).map (fun (i : Nat) => UInt8.ofNat (v / 256 ^ i % 256))

/-- Reading a 64-bit word from memory, e.g. `node->next`, `util/src/memory/pool-allocator.c:55`. -/
def load64 (mem : Int → UInt8) (p : Int) : Nat :=
  (mem p).toNat + 256 * (mem (p + 1)).toNat + 65536 * (mem (p + 2)).toNat + 16777216 * (mem (p + 3)).toNat +
  4294967296 * (mem (p + 4)).toNat + 1099511627776 * (mem (p + 5)).toNat + 281474976710656 * (mem (p + 6)).toNat +
  72057594037927936 * (mem (p + 7)).toNat

/-- Writing a 64-bit word to memory, e.g. `util/src/memory/pool-allocator.c:65`. -/
def store64 (p : Int) (v : Nat) (mem : Int → UInt8) : Int → UInt8 := memWrite p (le64 v) mem

/-- `flo_PoolAllocator`, `util/include/flo/util/memory/pool-allocator.h:21-29`, with the memory it manages; 0 is NULL. -/
structure Pool where
  beg : Int
  cap : Int
  chunk : Int
  head : Int
  mem : Int → UInt8

/-- `flo_freePoolNode`, `util/src/memory/pool-allocator.c:59-66`; also the body of the loop of `flo_freePool`. -/
def freePoolNode (p : Int) (pool : Pool) : Pool :=
  { pool with head := p, mem := store64 p pool.head.toNat pool.mem }

/-- `flo_freePool`, `util/src/memory/pool-allocator.c:4-14`. -/
def freePool (pool : Pool) : Pool :=
  (List.range (pool.cap.tdiv pool.chunk).toNat).foldl (fun pool (i : Nat) => freePoolNode (pool.beg + i * pool.chunk) pool) pool

/-- `flo_createPoolAllocator`, `util/src/memory/pool-allocator.c:19-40`; `mem` is what was in memory before. -/
def createPool (buffer cap chunk : Int) (mem : Int → UInt8) : Pool := freePool ⟨buffer, cap, chunk, 0, mem⟩

/-- `flo_poolAlloc`, `util/src/memory/pool-allocator.c:42-57`. -/
def poolAlloc (zero nullOnFail : Bool) (pool : Pool) : Out (Option Int × Pool) :=
  if pool.head = 0 then
    if nullOnFail then .ok (none, pool) else .longjmp
  else
    let node := pool.head
    .ok (some node, { pool with head := load64 pool.mem node,
                                mem := if zero then memZero node pool.chunk pool.mem else pool.mem })

end Flo
