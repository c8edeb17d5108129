import Verif.Spec.Attrs
/-!
# The attribute store a user expects (C29, C30)

Every node has a list of (key, value) pairs and a list of boolean names, oldest first.
-/
namespace Flo.Spec

structure Store where
  pairs : Nat → List (Str × Str)
  bools : Nat → List Str

/-- The attribute operations of the API. -/
inductive AttrOp
  | add (n : Nat) (key value : Str)
  | addBool (n : Nat) (name : Str)
  | set (n : Nat) (key value : Str)
  | remove (n : Nat) (key : Str)
  | removeBool (n : Nat) (name : Str)

/-- The node an operation is applied to. -/
def AttrOp.node : AttrOp → Nat
  | .add n _ _ | .addBool n _ | .set n _ _ | .remove n _ | .removeBool n _ => n

/-- Give the first pair with this key a new value. -/
def setFirst (key value : Str) : List (Str × Str) → List (Str × Str)
  | [] => []
  | (k, v) :: l => if k = key then (k, value) :: l else (k, v) :: setFirst key value l

/-- Delete the first pair with this key. -/
def removeFirst (key : Str) : List (Str × Str) → List (Str × Str)
  | [] => []
  | (k, v) :: l => if k = key then l else (k, v) :: removeFirst key l

/-- Change what is stored for one node. -/
def Store.at (s : Store) (n : Nat) (f : List (Str × Str) → List (Str × Str)) (g : List Str → List Str) : Store where
  pairs m := if m = n then f (s.pairs m) else s.pairs m
  bools m := if m = n then g (s.bools m) else s.bools m

def Store.apply (s : Store) : AttrOp → Store
  | .add n k v => s.at n (· ++ [(k, v)]) id
  | .addBool n b => s.at n id (· ++ [b])
  | .set n k v => s.at n (setFirst k v) id
  | .remove n k => s.at n (removeFirst k) id
  | .removeBool n b => s.at n id (·.erase b)

/-- The value of the first pair with this key. -/
def lookup (key : Str) : List (Str × Str) → Option Str
  | [] => none
  | (k, v) :: l => if k = key then some v else lookup key l

end Flo.Spec
