import Verif.Model.Basic
/-!
# Hash functions

Source: `util/include/flo/util/hash/hashes.h`.
-/
namespace Flo

/-- One round of `flo_hashStringDjb2`, `util/include/flo/util/hash/hashes.h:28-33`:
`hash = ((hash << 5) + hash) ^ c` on `uint64_t`. -/
def djb2Step (h : UInt64) (c : UInt8) : UInt64 := ((h <<< 5) + h) ^^^ c.toUInt64

/-- `flo_hashStringDjb2`, `util/include/flo/util/hash/hashes.h:26-36`. -/
def hashDjb2 (s : Str) : UInt64 := s.foldl djb2Step 5381

/-- `flo_hash16_xm3`, `util/include/flo/util/hash/hashes.h:41-50`. -/
def hash16 (x : UInt16) : UInt16 :=
  let x := x ^^^ (x >>> 7)
  let x := x * 0x2993
  let x := x ^^^ (x >>> 5)
  let x := x * 0xe877
  let x := x ^^^ (x >>> 9)
  let x := x * 0x0235
  x ^^^ (x >>> 10)

end Flo
