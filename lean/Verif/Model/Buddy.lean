import Verif.Model.Pool
/-!
# Buddy allocator

Source: `util/src/memory/buddy-allocator.c`, `util/include/flo/util/memory/buddy-allocator.h`.  A block starts with a header of 16
bytes in the managed memory: the size of the block (header included) and, at offset 8, the flag `isFree`.
`size_t` arithmetic is modulo 2^64.  Addresses are integers; comparisons of pointers compare addresses.
-/
namespace Flo

/-- `block->size`, `util/include/flo/util/memory/buddy-allocator.h:18-21`. -/
def bSize (mem : Int → UInt8) (p : Int) : Nat := load64 mem p
/-- `block->isFree`, `util/include/flo/util/memory/buddy-allocator.h:18-21`. -/
def bFree (mem : Int → UInt8) (p : Int) : Bool := mem (p + 8) != 0
/-- `block->size = n`, `util/src/memory/buddy-allocator.c:10`. -/
def setSize (p : Int) (n : Nat) (mem : Int → UInt8) : Int → UInt8 := store64 p n mem
/-- `block->isFree = f`, `util/src/memory/buddy-allocator.c:13`. -/
def setFree (p : Int) (f : Bool) (mem : Int → UInt8) : Int → UInt8 := memWrite (p + 8) [if f then 1 else 0] mem
/-- `flo_nextBuddy`, `util/include/flo/util/memory/buddy-allocator.h:23-26`. -/
def nextBuddy (mem : Int → UInt8) (p : Int) : Int := p + bSize mem p

/-- 2^64, the modulus of `size_t` (`util/include/flo/util/memory/buddy-allocator.h:18-21`). -/
def wordMod : Nat := 18446744073709551616

/-- The loop of `flo_splitBuddy`, `util/src/memory/buddy-allocator.c:8-14`. -/
def splitLoop (size : Nat) : Nat → Int → (Int → UInt8) → Out (Int × (Int → UInt8))
  | 0, _, _ => .hang
  | f + 1, block, mem =>
    if size * 2 % wordMod < bSize mem block then
      let halfSize := bSize mem block / 2
      let mem := setSize block halfSize mem
      let block := nextBuddy mem block
      let mem := setSize block halfSize mem
      let mem := setFree block true mem
      splitLoop size f block mem
    else .ok (block, mem)

/-- `flo_splitBuddy`, `util/src/memory/buddy-allocator.c:4-22`, for a block that is not NULL.  64-bit sizes are halved at
most 64 times. -/
def splitBuddy (block : Int) (size : Nat) (mem : Int → UInt8) : Out (Option Int × (Int → UInt8)) := do
  let (block, mem) ← splitLoop size 65 block mem
  if size ≤ bSize mem block then .ok (some block, mem) else .ok (none, mem)

/-- `bestBlock == NULL || n < bestBlock->size`, `util/src/memory/buddy-allocator.c:60` and `65`. -/
def betterThan (mem : Int → UInt8) (n : Nat) : Option Int → Bool
  | none => true
  | some b => decide (n < bSize mem b)

/-- `bestBlock == NULL || n <= bestBlock->size`, `util/src/memory/buddy-allocator.c:47`. -/
def atLeastAsGood (mem : Int → UInt8) (n : Nat) : Option Int → Bool
  | none => true
  | some b => decide (n ≤ bSize mem b)

/-- The loop of `flo_findBestBuddy`, `util/src/memory/buddy-allocator.c:39-82`. -/
def findLoop (size : Nat) (tail : Int) : Nat → Int → Int → Option Int → (Int → UInt8) → Out (Option Int × (Int → UInt8))
  | 0, _, _, _, _ => .hang
  | f + 1, block, buddy, best, mem =>
    if block < tail ∧ buddy < tail then
      if bFree mem block = true ∧ bFree mem buddy = true ∧ bSize mem block = bSize mem buddy then
        let mem := setSize block (bSize mem block * 2 % wordMod) mem
        let best := if size ≤ bSize mem block ∧ atLeastAsGood mem (bSize mem block) best = true then some block else best
        let block := nextBuddy mem buddy
        let buddy := if block < tail then nextBuddy mem block else buddy
        findLoop size tail f block buddy best mem
      else
        let best := if bFree mem block = true ∧ size ≤ bSize mem block ∧ betterThan mem (bSize mem block) best = true
          then some block else best
        let best := if bFree mem buddy = true ∧ size ≤ bSize mem buddy ∧ betterThan mem (bSize mem buddy) best = true
          then some buddy else best
        if bSize mem block < bSize mem buddy then
          let block := nextBuddy mem buddy
          let buddy := if block < tail then nextBuddy mem block else buddy
          findLoop size tail f block buddy best mem
        else
          findLoop size tail f buddy (nextBuddy mem buddy) best mem
    else .ok (best, mem)

/-- `flo_findBestBuddy`, `util/src/memory/buddy-allocator.c:24-91`. -/
def findBestBuddy (head tail : Int) (size : Nat) (mem : Int → UInt8) : Out (Option Int × (Int → UInt8)) :=
  if nextBuddy mem head = tail ∧ bFree mem head = true then splitBuddy head size mem
  else do
    let (best, mem) ← findLoop size tail ((tail - head).toNat + 1) head (nextBuddy mem head) none mem
    match best with
    | some b => splitBuddy b size mem
    | none => .ok (none, mem)

/-- The inner loop of `flo_coalesceBuddies`, `util/src/memory/buddy-allocator.c:121-150`. -/
def coalesceLoop (tail : Int) : Nat → Int → Int → Bool → (Int → UInt8) → Out (Bool × (Int → UInt8))
  | 0, _, _, _, _ => .hang
  | f + 1, block, buddy, noCoalesce, mem =>
    if block < tail ∧ buddy < tail then
      if bSize mem block < bSize mem buddy then
        let block := nextBuddy mem buddy
        let buddy := if block < tail then nextBuddy mem block else buddy
        coalesceLoop tail f block buddy noCoalesce mem
      else if bSize mem block > bSize mem buddy then
        coalesceLoop tail f buddy (nextBuddy mem buddy) noCoalesce mem
      else if bFree mem block = true ∧ bFree mem buddy = true then
        let mem := setSize block (bSize mem block * 2 % wordMod) mem
        let block := nextBuddy mem block
        if block < tail then coalesceLoop tail f block (nextBuddy mem block) false mem
        else coalesceLoop tail f block buddy noCoalesce mem
      else
        let block := nextBuddy mem buddy
        let buddy := if block < tail then nextBuddy mem block else buddy
        coalesceLoop tail f block buddy noCoalesce mem
    else .ok (noCoalesce, mem)

/-- `flo_coalesceBuddies`, `util/src/memory/buddy-allocator.c:113-156`. -/
def coalesceBuddies (head tail : Int) : Nat → (Int → UInt8) → Out (Int → UInt8)
  | 0, _ => .hang
  | f + 1, mem => do
    let (noCoalesce, mem) ← coalesceLoop tail ((tail - head).toNat + 1) head (nextBuddy mem head) true mem
    if noCoalesce = true then .ok mem else coalesceBuddies head tail f mem

/-- `flo_BuddyAllocator`, `util/include/flo/util/memory/buddy-allocator.h:33-38`, with the memory it manages. -/
structure Buddy where
  head : Int
  tail : Int
  mem : Int → UInt8

/-- `flo_createBuddyAllocator`, `util/src/memory/buddy-allocator.c:93-107`. -/
def createBuddy (data : Int) (size : Nat) (mem : Int → UInt8) : Buddy :=
  let mem := setFree data true (setSize data size mem)
  ⟨data, nextBuddy mem data, mem⟩

/-- `flo_buddyAlloc`, `util/src/memory/buddy-allocator.c:158-189`; `size` and `count` are not negative. -/
def buddyAlloc (size count : Nat) (zero nullOnFail : Bool) (b : Buddy) : Out (Option Int × Buddy) := do
  let total := size * count % wordMod
  let totalSize := (total + 16) % wordMod
  let (found, mem) ← findBestBuddy b.head b.tail totalSize b.mem
  let (found, mem) ← (match found with
    | some p => .ok (some p, mem)
    | none => do
      let mem ← coalesceBuddies b.head b.tail ((b.tail - b.head).toNat + 1) mem
      findBestBuddy b.head b.tail totalSize mem)
  match found with
  | some p =>
    let mem := setFree p false mem
    let result := p + 16
    .ok (some result, { b with mem := if zero then memZero result total mem else mem })
  | none => if nullOnFail then .ok (none, { b with mem := mem }) else .longjmp

/-- `flo_freeBuddy`, `util/src/memory/buddy-allocator.c:191-200`. -/
def freeBuddy (data : Int) (b : Buddy) : Out Buddy := do
  let mem := setFree (data - 16) true b.mem
  let mem ← coalesceBuddies b.head b.tail ((b.tail - b.head).toNat + 1) mem
  .ok { b with mem := mem }

end Flo
