import Verif.Props.Nav
/-!
# Attributes behave like a per-node store (C29, C30)
-/
namespace Flo
open Spec

/-- Calling a sequence of attribute functions, one after the other. -/
def runAttrs : List AttrOp → Dom → Out Dom
  | [], d => .ok d
  | op :: ops, d => do
    let d ← runAttr op d
    runAttrs ops d

/-- What the DOM stores at the beginning. -/
def storeOf (d : Dom) : Store := ⟨pairs d, bools d⟩

/-- The readers answer according to the store `s`, for every node. -/
structure Answers (d : Dom) (s : Store) : Prop where
  hasProperty : ∀ n k v, n ≠ 0 → (hasProperty n k v d = true ↔ (k, v) ∈ s.pairs n)
  hasPropKey : ∀ n k, n ≠ 0 → (hasPropKey n k d = true ↔ ∃ v, (k, v) ∈ s.pairs n)
  hasPropValue : ∀ n v, n ≠ 0 → (hasPropValue n v d = true ↔ ∃ k, (k, v) ∈ s.pairs n)
  hasBoolProp : ∀ n b, n ≠ 0 → (hasBoolProp n b d = true ↔ b ∈ s.bools n)
  getValue : ∀ n k, n ≠ 0 → getValue n k d = .ok ((lookup k (s.pairs n)).getD [])

theorem answers_of {d : Dom} (h : NamesOK d) {s : Store} (hp : ∀ n, n ≠ 0 → pairs d n = s.pairs n)
    (hb : ∀ n, n ≠ 0 → bools d n = s.bools n) : Answers d s where
  hasProperty n k v hn := by rw [hasProperty_iff h hn, hp n hn]
  hasPropKey n k hn := by rw [hasPropKey_iff h hn, hp n hn]
  hasPropValue n v hn := by rw [hasPropValue_iff h hn, hp n hn]
  hasBoolProp n b hn := by rw [hasBoolProp_iff h hn, hb n hn]
  getValue n k hn := by rw [getValue_eq h hn, hp n hn]

theorem runAttr_store {d : Dom} (h : NamesOK d) (op : AttrOp) (hn : op.node ≠ 0) {d' : Dom} (hr : runAttr op d = .ok d') :
    SameShape d d' ∧ NamesOK d' ∧
    ∀ s : Store, (∀ n, n ≠ 0 → pairs d n = s.pairs n) → (∀ n, n ≠ 0 → bools d n = s.bools n) →
      (∀ n, n ≠ 0 → pairs d' n = (s.apply op).pairs n) ∧ (∀ n, n ≠ 0 → bools d' n = (s.apply op).bools n) := by
  have fin : ∀ {f g}, AttrStep d d' op.node f g → (∀ s : Store, s.apply op = s.at op.node f g) →
      SameShape d d' ∧ NamesOK d' ∧
      ∀ s : Store, (∀ n, n ≠ 0 → pairs d n = s.pairs n) → (∀ n, n ≠ 0 → bools d n = s.bools n) →
        (∀ n, n ≠ 0 → pairs d' n = (s.apply op).pairs n) ∧ (∀ n, n ≠ 0 → bools d' n = (s.apply op).bools n) := by
    intro f g a e
    refine ⟨a.shape, a.names, fun s hp hb => ⟨fun n hn => ?_, fun n hn => ?_⟩⟩
    · rw [a.pairs n hn, hp n hn, e]; rfl
    · rw [a.bools n hn, hb n hn, e]; rfl
  cases op with
  | add n k v => exact fin (addProperty_step h hr) (fun s => rfl)
  | addBool n b => exact fin (addBoolProperty_step h hr) (fun s => rfl)
  | set n k v =>
    simp only [runAttr, Out.bind_eq_ok] at hr
    obtain ⟨r, hr, e⟩ := hr
    cases e
    exact fin (setPropertyValue_step h hn hr).1 (fun s => rfl)
  | remove n k => cases hr; exact fin (removeProperty_step h hn k) (fun s => rfl)
  | removeBool n b => cases hr; exact fin (removeBoolProperty_step h hn b) (fun s => rfl)

/-- C29: after any sequence of attribute operations on existing nodes of a reachable DOM, every attribute reader
answers as the abstract per-node store does after the same operations. -/
theorem C29_attribute_store (d : Dom) (h : Reachable d) (ops : List AttrOp) (ho : ∀ op ∈ ops, IsNode d op.node) :
    runAttrs ops d = .longjmp ∨
    ∃ d', runAttrs ops d = .ok d' ∧ Answers d' (ops.foldl Store.apply (storeOf d)) := by
  obtain ⟨hi, h0⟩ := reach_domI h
  have key : ∀ (ops : List AttrOp) (d1 : Dom) (ch : Nat → List Nat) (s : Store), DomI d1 ch →
      (∀ op ∈ ops, IsNode d1 op.node) →
      (∀ n, n ≠ 0 → pairs d1 n = s.pairs n) → (∀ n, n ≠ 0 → bools d1 n = s.bools n) →
      runAttrs ops d1 = .longjmp ∨ ∃ d', runAttrs ops d1 = .ok d' ∧ Answers d' (ops.foldl Store.apply s) := by
    intro ops
    induction ops with
    | nil => intro d1 ch s hi _ hp hb; exact Or.inr ⟨d1, rfl, answers_of hi.names hp hb⟩
    | cons op ops ih =>
      intro d1 ch s hi ho hp hb
      have hop := ho op (by simp)
      rcases (runAttr_post hi op hop).cases with e | ⟨d2, e, f, g, a⟩
      · left; simp [runAttrs, e]
      · have hs := (runAttr_store hi.names op hop.1 e).2.2 s hp hb
        have hlen : d2.nodes.length = d1.nodes.length := by rw [a.shape.nodes]
        have := ih d2 ch (s.apply op) (a.domI hi hop.2) (fun o hm => by
          have := ho o (by simp [hm]); unfold IsNode at this ⊢; rw [hlen]; exact this) hs.1 hs.2
        simpa [runAttrs, e] using this
  exact key ops d (kids d) (storeOf d) hi ho (fun _ _ => rfl) (fun _ _ => rfl)

/-- `setPropertyValue` reports success exactly if the node has the key. -/
theorem C29_set_reports (d : Dom) (h : Reachable d) (n : Nat) (hn : n ≠ 0) (k v : Str) (b : Bool) (d' : Dom)
    (hr : setPropertyValue n k v d = .ok (b, d')) : b = true ↔ ∃ w, (k, w) ∈ pairs d n := by
  obtain ⟨hi, h0⟩ := reach_domI h
  rw [(setPropertyValue_step hi.names hn hr).2]
  have : ∀ l : List (Str × Str), lookup k l ≠ none ↔ ∃ w, (k, w) ∈ l := by
    intro l
    induction l with
    | nil => simp [lookup]
    | cons x l ih =>
      obtain ⟨a, c⟩ := x
      unfold lookup
      by_cases hk : a = k
      · subst hk; simp
      · rw [if_neg hk, ih]
        constructor
        · rintro ⟨w, hw⟩; exact ⟨w, by simp [hw]⟩
        · rintro ⟨w, hw⟩
          rcases List.mem_cons.mp hw with e | hw
          · cases e; exact absurd rfl hk
          · exact ⟨w, hw⟩
  exact this _

/-- C30: an attribute operation on one node changes nothing about any other node, and it changes neither the
tree nor the type, tag and text of any node. -/
theorem C30_other_nodes_untouched (d : Dom) (h : Reachable d) (op : AttrOp) (ho : IsNode d op.node) (d' : Dom)
    (hr : runAttr op d = .ok d') :
    (∀ m, m ≠ 0 → m ≠ op.node → SameNode d d' m) ∧
    (∀ m k v, m ≠ 0 → m ≠ op.node → hasProperty m k v d' = hasProperty m k v d) ∧
    (∀ m k, m ≠ 0 → m ≠ op.node → hasPropKey m k d' = hasPropKey m k d ∧ getValue m k d' = getValue m k d) ∧
    (∀ m v, m ≠ 0 → m ≠ op.node → hasPropValue m v d' = hasPropValue m v d) ∧
    (∀ m b, m ≠ 0 → m ≠ op.node → hasBoolProp m b d' = hasBoolProp m b d) ∧
    (∀ q, kids d' q = kids d q) := by
  obtain ⟨hi, h0⟩ := reach_domI h
  obtain ⟨f, g, a⟩ := (runAttr_post hi op ho).elim hr
  have hp : ∀ m, m ≠ 0 → m ≠ op.node → pairs d' m = pairs d m := fun m h1 h2 => by rw [a.pairs m h1, if_neg h2]
  have hb : ∀ m, m ≠ 0 → m ≠ op.node → bools d' m = bools d m := fun m h1 h2 => by rw [a.bools m h1, if_neg h2]
  refine ⟨fun m h1 h2 => a.same h1 h2, fun m k v h1 h2 => ?_, fun m k h1 h2 => ⟨?_, ?_⟩, fun m v h1 h2 => ?_,
    fun m b h1 h2 => ?_, fun q => ?_⟩
  · rw [Bool.eq_iff_iff, hasProperty_iff a.names h1, hasProperty_iff hi.names h1, hp m h1 h2]
  · rw [Bool.eq_iff_iff, hasPropKey_iff a.names h1, hasPropKey_iff hi.names h1, hp m h1 h2]
  · rw [getValue_eq a.names h1, getValue_eq hi.names h1, hp m h1 h2]
  · rw [Bool.eq_iff_iff, hasPropValue_iff a.names h1, hasPropValue_iff hi.names h1, hp m h1 h2]
  · rw [Bool.eq_iff_iff, hasBoolProp_iff a.names h1, hasBoolProp_iff hi.names h1, hb m h1 h2]
  · rw [(a.domI hi ho.2).kidsFun h0]

/-- non-vacuity: a sequence of all five operations on two nodes returns. -/
example : ∃ d, Reachable d ∧
    (∀ op ∈ [AttrOp.add 2 b!"k" b!"v", .set 2 b!"k" b!"w", .add 5 b!"k" b!"u", .addBool 5 b!"x", .remove 5 b!"k"],
      IsNode d op.node) ∧
    okAnd (runAttrs [.add 2 b!"k" b!"v", .set 2 b!"k" b!"w", .add 5 b!"k" b!"u", .addBool 5 b!"x", .remove 5 b!"k"] d)
      (fun d' => decide (getValue 2 b!"k" d' = .ok b!"w" ∧ getValue 5 b!"k" d' = .ok b!"u" ∧
        hasBoolProp 5 b!"x" d' = true)) = true := by
  obtain ⟨d, h, hd⟩ := okAnd_ex (x := exampleRun) (p := fun d => decide (5 < d.nodes.length) &&
    okAnd (runAttrs [.add 2 b!"k" b!"v", .set 2 b!"k" b!"w", .add 5 b!"k" b!"u", .addBool 5 b!"x", .remove 5 b!"k"] d)
      (fun d' => decide (getValue 2 b!"k" d' = .ok b!"w" ∧ getValue 5 b!"k" d' = .ok b!"u" ∧
        hasBoolProp 5 b!"x" d' = true))) (by decide +kernel)
  rw [Bool.and_eq_true] at hd
  have := of_decide_eq_true hd.1
  refine ⟨d, exampleRun_reachable h, ?_, hd.2⟩
  intro op hop
  simp only [List.mem_cons, List.not_mem_nil, or_false] at hop
  rcases hop with rfl | rfl | rfl | rfl | rfl <;> exact ⟨by decide, by show _ < _; simp [AttrOp.node]; omega⟩

end Flo
