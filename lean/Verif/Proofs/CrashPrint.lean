import Verif.Proofs.CrashLinks
import Verif.Proofs.History
/-!
# Wherever an edit fails, the document can be printed (C129, C130)
-/
namespace Flo.Crash
open Spec CM

def CanPrint (d : Dom) : Prop := ∃ t, printHTML d = .ok t

theorem CanPrint.but {x y : Dom} (h : CanPrint x) (hs : SameButParents x y) : CanPrint y := by
  obtain ⟨t, ht⟩ := h
  exact ⟨t, by rw [hs, print_pc, ht]⟩

theorem CanPrint.ext {x y : Dom} (h : CanPrint x) (he : Ext x y) : CanPrint y := by
  obtain ⟨t, ht⟩ := h
  exact ⟨t, he.print ht⟩

theorem inv_prints {d : Dom} (h : Inv d) : CanPrint d := by
  obtain ⟨ch, h, _⟩ := h
  exact linked_prints h

/-- Wherever the program fails when it is run on `x`, the document it leaves satisfies `Q`. -/
def TP {α : Type} (Q : Dom → Prop) (m : CM α) (x : Dom) : Prop := ∀ k x', m k x = .fail x' → Q x'

section Rules
variable {α β : Type} {x : Dom} {Q : Dom → Prop}

theorem TP.mono {P : Dom → Prop} {m : CM α} (h : TP P m x) (hp : ∀ x, P x → Q x) : TP Q m x := fun k x' e => hp _ (h k x' e)

theorem TP.bind {m : CM α} {f : α → CM β} (h : TP Q m x) (hf : ∀ a y j k, m k x = .done a y j → TP Q (f a) y) : TP Q (m >>= f) x := by
  intro k x' e
  rw [bind_run] at e
  cases hm : m k x with
  | done a y j => rw [hm] at e; exact hf a y j k hm _ _ e
  | fail y => rw [hm] at e; cases e; exact h k _ hm
  | stop => rw [hm] at e; cases e

theorem TP.pure {a : α} : TP Q (pure a : CM α) x := fun _ _ e => by cases e

theorem TP.last {m : CM α} {a : β} (h : TP Q m x) : TP Q (do let _ ← m; Pure.pure a : CM β) x := h.bind fun _ _ _ _ _ => TP.pure

theorem TP.ite {c : Prop} [Decidable c] {m m' : CM α} (h : c → TP Q m x) (h' : ¬c → TP Q m' x) : TP Q (if c then m else m') x := by
  split
  · exact h ‹_›
  · exact h' ‹_›

theorem TP.ask {f : Dom → Out α} {g : α → CM β} (hx : Q x) (hg : ∀ a, f x = .ok a → TP Q (g a) x) : TP Q (CM.ask f >>= g) x := by
  refine TP.bind ?_ fun a y j k e => ?_
  · intro k x' e
    unfold CM.ask at e
    cases hf : f x with
    | ok a => rw [hf] at e; cases e
    | longjmp => rw [hf] at e; cases e; exact hx
    | ub w => rw [hf] at e; cases e
    | hang => rw [hf] at e; cases e
  · unfold CM.ask at e
    cases hf : f x with
    | ok b => rw [hf] at e; cases e; exact hg _ hf
    | longjmp => rw [hf] at e; cases e
    | ub w => rw [hf] at e; cases e
    | hang => rw [hf] at e; cases e

theorem TP.read {f : Dom → α} {g : α → CM β} (h : TP Q (g (f x)) x) : TP Q (CM.read f >>= g) x := h

theorem TP.write {f : Dom → Dom} {g : Unit → CM β} (h : TP Q (g ()) (f x)) : TP Q (CM.write f >>= g) x := h

theorem TP.push {f : Dom → Dom} {g : Unit → CM β} (hx : Q x) (h : TP Q (g ()) (f x)) : TP Q (CM.push f >>= g) x := by
  intro k x' e
  cases k with
  | zero => cases e; exact hx
  | succ k => exact h k x' e

theorem TP.change {f : Dom → Out Dom} (hf : ∀ d, f d ≠ .longjmp) {g : Unit → CM β} (h : ∀ y, f x = .ok y → TP Q (g ()) y) :
    TP Q (CM.change f >>= g) x := by
  refine TP.bind ?_ fun a y j k e => ?_
  · intro k x' e
    exact absurd e (by
      unfold CM.change
      intro h
      cases e : f x with
      | ok a => rw [e] at h; cases h
      | longjmp => exact hf x e
      | ub w => rw [e] at h; cases h
      | hang => rw [e] at h; cases h)
  · unfold CM.change at e
    cases hf' : f x with
    | ok b => rw [hf'] at e; cases e; exact h _ hf'
    | longjmp => rw [hf'] at e; cases e
    | ub w => rw [hf'] at e; cases e
    | hang => rw [hf'] at e; cases e

theorem tryMerge_keep (i j : Nat) (e : Bool) : Tri (· = x) (tryMergeC i j e) (fun _ _ => True) (· = x) := by
  unfold tryMergeC
  refine (Tri.ask fun _ h => h).bind fun nd => Tri.iteC (fun _ => ?_) fun _ => Tri.pure fun _ _ => trivial
  refine (Tri.ask fun _ h => h.1).bind fun _ => (Tri.ask fun _ h => h.1.1).bind fun _ => ?_
  refine Tri.bind (R := fun _ _ => True) ?_ fun _ => Tri.pure fun _ _ => trivial
  exact (Tri.ask fun _ h => h.1.1.1).bind fun _ => (Tri.ask fun _ h => h.1.1.1.1).bind fun _ =>
    Tri.push (Q := fun _ => True) (fun _ h => h.1.1.1.1.1) fun _ _ => trivial

theorem TP.merge {i j : Nat} {e : Bool} {g : Bool → CM β} (hx : Q x) (h : ∀ b y, tryMerge i j e x = .ok (b, y) → TP Q (g b) y) :
    TP Q (tryMergeC i j e >>= g) x := by
  refine TP.bind ?_ fun b y j' k hm => ?_
  · intro k x' e'
    rw [(tryMerge_keep (x := x) i j e).fails rfl e']
    exact hx
  · obtain ⟨b', h1, h2⟩ := (sim_tryMerge i j e x).done_ok hm
    obtain rfl : b' = (b, y) := h2
    exact h b y h1

end Rules

/-! ## Linking -/

section Tails
variable {m : Dom} {c : Nat → List Nat} {Q : Dom → Prop} (h : DomI m c)

theorem connect_same {p n : Nat} {z d' : Dom} (hz : connectOthers p n z = .ok d') : SameButParents z d' := by
  have hs := sim_connectOthers p n z
  rw [hz] at hs
  obtain ⟨j, h1, _⟩ := hs
  have := connect_pc p n z (j + 0) z (SameButParents.refl z)
  rw [h1 0] at this
  exact this

theorem connect_tp {p n : Nat} {z d' : Dom} (hz : connectOthers p n z = .ok d') (hd : ∀ y, SameButParents d' y → Q y) :
    TP Q (connectOthersC p n) z :=
  fun _ _ e => hd _ (connect_fail e hz)

theorem append_tp {p f0 : Nat} {d' : Dom} (e : appendUpdateReferences p f0 m = .ok d') (hm : Q m) (hd : ∀ y, SameButParents d' y → Q y) :
    TP Q (appendUpdateReferencesC p f0) m := by
  unfold appendUpdateReferences at e
  unfold appendUpdateReferencesC
  refine TP.read ?_
  cases hf : getFirstChildNode p m with
  | none =>
    rw [hf] at e
    dsimp only at e ⊢
    have hs := connect_same e
    refine TP.push hm (TP.push ?_ (connect_tp e hd))
    exact hd _ (SameButParents.symm (SameButParents.trans (e := { m with fc := m.fc ++ [(p, f0)], pc := m.pc ++ [(p, f0)] }) rfl hs))
  | some i =>
    rw [hf] at e
    dsimp only at e ⊢
    refine TP.ask hm fun last hl => ?_
    rw [hl, Out.bind_ok] at e
    have hs := connect_same e
    refine TP.push hm (TP.push ?_ (connect_tp e hd))
    exact hd _ (SameButParents.symm (SameButParents.trans (e := { m with nn := m.nn ++ [(last, f0)], pc := m.pc ++ [(p, f0)] }) rfl hs))

theorem replaceLoop_keep (i : Nat) (z : Dom) : ∀ f o, Tri (SameButParents z) (replaceConnectLoopC i f o) (fun _ => SameButParents z) (SameButParents z)
  | 0, _ => fun _ _ _ => trivial
  | f + 1, o => by
    unfold replaceConnectLoopC
    refine Tri.iteC (fun _ => ?_) fun _ => Tri.pure fun _ h => h
    refine (Tri.push (Q := SameButParents z) (fun _ h => h) fun x h => ?_).bind fun _ => (Tri.read _).bind fun nx =>
      (replaceLoop_keep i z f nx).mono (fun _ h => h.1) (fun _ _ h => h) fun _ h => h
    show _ = _
    rw [h]

theorem replaceParent_keep (i : Option Nat) (n : Nat) (z : Dom) :
    Tri (SameButParents z) (replaceParentC i n) (fun _ => SameButParents z) (SameButParents z) := by
  unfold replaceParentC
  cases i with
  | none => exact Tri.pure fun _ h => h
  | some i =>
    refine (Tri.write (Q := SameButParents z) fun x h => ?_).bind fun _ => (Tri.read _).bind fun _ => (Tri.read _).bind fun nx =>
      (replaceLoop_keep i z _ nx).mono (fun _ h => h.1.1) (fun _ _ h => h) fun _ h => h
    show _ = _
    rw [h]

include h
variable {p f0 : Nat} {F : List Nat} (hF : c 0 = f0 :: F) (hp : p ≠ 0) (hlt : ∀ x ∈ c 0, p < x)
include hF hp hlt

theorem prepend_tp {d' : Dom} (e : prependUpdateReferences p f0 m = .ok d') (hm : Q m) (hd : ∀ y, SameButParents d' y → Q y)
    (hl : ∀ z y, DomI z (upd (upd c 0 []) p (f0 :: F)) → (∀ q, SameNode m z q) → SameButParents z y → Q y) :
    TP Q (prependUpdateReferencesC p f0) m := by
  unfold prependUpdateReferences at e
  unfold prependUpdateReferencesC
  refine TP.read ?_
  cases hf : getFirstChildNode p m with
  | none =>
    rw [hf] at e
    dsimp only at e ⊢
    have hs := connect_same e
    refine TP.push hm (TP.push ?_ (connect_tp e hd))
    exact hd _ (SameButParents.symm (SameButParents.trans (e := { m with fc := m.fc ++ [(p, f0)], pc := m.pc ++ [(p, f0)] }) rfl hs))
  | some i =>
    rw [hf] at e
    dsimp only at e ⊢
    refine TP.read (TP.write ?_)
    obtain ⟨hlen, hkey, _⟩ := List.findIdx?_eq_some_iff_getElem.1 hf
    have hrow : m.fc[i]? = some (rowAt m.fc i) := by
      unfold rowAt
      rw [List.getD_eq_getElem?_getD, List.getElem?_eq_getElem hlen]; rfl
    have hk : (rowAt m.fc i).1 = p := by
      rw [List.getElem?_eq_getElem hlen] at hrow
      rw [← Option.some.inj hrow]; simpa using hkey
    obtain ⟨a, b⟩ : ∃ b, rowAt m.fc i = (p, b) := ⟨(rowAt m.fc i).2, by rw [← hk]⟩
    rw [b] at hrow
    have hh : (c p).head? = some a := (h.linked.fcM p a hp).mp (List.mem_of_getElem? hrow)
    obtain ⟨z, hz, hzn, hzs⟩ := lostFirst h hF hp hlt hh hrow
    have hw : Q { m with fc := m.fc.set i ((rowAt m.fc i).1, f0) } := by
      rw [b]
      exact hl z _ hz hzn hzs
    refine TP.ask hw fun last hl => ?_
    rw [hl, Out.bind_ok] at e
    have hs := connect_same e
    refine TP.push hw (TP.push ?_ (connect_tp e hd))
    exact hd _ (SameButParents.symm (SameButParents.trans
      (e := { m with fc := m.fc.set i ((rowAt m.fc i).1, f0), nn := m.nn ++ [(last, (rowAt m.fc i).2)], pc := m.pc ++ [(p, f0)] }) rfl hs))

theorem replace_tp {old : Nat} {l₁ l₂ : List Nat} (he : c p = l₁ ++ old :: l₂) (hm : Q m)
    (hl : ∀ z y, DomI z (upd (upd c 0 []) p (l₁ ++ f0 :: F)) → (∀ q, SameNode m z q) → SameButParents z y → Q y) :
    TP Q (replaceUpdateReferencesC old f0) m := by
  obtain ⟨z, hz, hzn, hzs⟩ := lostRest h hF hp he hlt
  unfold replaceUpdateReferencesC
  refine TP.ask hm fun node _ => TP.ask hm fun last _ => TP.read (TP.read (TP.write (TP.bind ?_ fun _ _ _ _ _ => ?_)))
  · intro k x' e
    exact hl z _ hz hzn (SameButParents.trans hzs ((replaceParent_keep _ _ _).fails (SameButParents.refl _) e))
  · exact fun _ _ e => by cases e

end Tails
end Flo.Crash
