import Verif.Spec.Log
/-!
# What a file gets when writes fail (C60, C71)
-/
namespace Flo.Spec

/-- The text `P` was appended to an empty buffer of `cap` bytes whose file may report errors: the file got `c`, and `R` is in the buffer.
Each time the buffer is full and there is more to come, its contents are delivered, after any number of attempts that failed behind some
proper part of them. -/
inductive Pushed (cap : Nat) : Str → Str → Str → Prop
  | fits {P : Str} : P.length ≤ cap → Pushed cap P [] P
  | failed {P p c R : Str} : cap < P.length → p <+: P.take cap → p.length < cap → Pushed cap P c R → Pushed cap P (p ++ c) R
  | delivered {P c R : Str} : cap < P.length → Pushed cap (P.drop cap) c R → Pushed cap P (P.take cap ++ c) R

/-- The same with a last attempt to deliver what is in the buffer. -/
def Delivered (cap : Nat) (P c : Str) : Prop := ∃ c1 R c2, Pushed cap P c1 R ∧ c2 <+: R ∧ c = c1 ++ c2

end Flo.Spec
