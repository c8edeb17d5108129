import Verif.Model.Arena
/-!
# Reading an array of identifiers from memory
-/
namespace Flo.Spec

/-- The 16-bit number stored at `p`, low byte first. -/
def word16 (mem : Int → UInt8) (p : Int) : Nat := (mem p).toNat + 256 * (mem (p + 1)).toNat

/-- The `n` 16-bit numbers stored from `p` on. -/
def words16 (mem : Int → UInt8) (p : Int) (n : Nat) : List Nat := (List.range n).map (fun i : Nat => word16 mem (p + 2 * (i : Int)))

/-- Bytes outside the free part of the arena are as before. -/
def KeepsRest (a : Arena) (mem : Int → UInt8) : Prop := ∀ x, x < a.beg ∨ a.stop ≤ x → mem x = a.mem x

end Flo.Spec
