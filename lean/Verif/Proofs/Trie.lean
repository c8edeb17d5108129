import Verif.Spec.Trie
import Mathlib.Data.List.Basic
import Mathlib.Order.Basic
import Mathlib.Data.List.Perm.Basic
import Mathlib.Data.List.Nodup
/-!
# Hash tries
-/
namespace Flo
open Spec

/-- The payloads in preorder. -/
def QTrie.toList {α : Type} : QTrie α → List α
  | .nil => []
  | .node d c0 c1 c2 c3 => d :: (c0.toList ++ (c1.toList ++ (c2.toList ++ c3.toList)))

theorem QTrie.length_toList {α : Type} (t : QTrie α) : t.toList.length = Spec.QTrie.size t := by
  induction t with
  | nil => rfl
  | node d c0 c1 c2 c3 i0 i1 i2 i3 => simp [toList, Spec.QTrie.size, i0, i1, i2, i3]; omega

/-! ## The iterator -/

/-- What is still to come from a node whose next step is `i`. -/
def remAt {α : Type} (t : QTrie α) (i : Nat) : List α :=
  match t with
  | .nil => []
  | .node d c0 c1 c2 c3 =>
    match i with
    | 0 => d :: (c0.toList ++ (c1.toList ++ (c2.toList ++ c3.toList)))
    | 1 => c0.toList ++ (c1.toList ++ (c2.toList ++ c3.toList))
    | 2 => c1.toList ++ (c2.toList ++ c3.toList)
    | 3 => c2.toList ++ c3.toList
    | 4 => c3.toList
    | _ => []

/-- The steps still to be made at a node. -/
def workAt {α : Type} (t : QTrie α) (i : Nat) : Nat :=
  match t with
  | .nil => 0
  | .node _ c0 c1 c2 c3 =>
    match i with
    | 0 => 6 + 6 * (Spec.QTrie.size c0 + Spec.QTrie.size c1 + Spec.QTrie.size c2 + Spec.QTrie.size c3)
    | 1 => 5 + 6 * (Spec.QTrie.size c0 + Spec.QTrie.size c1 + Spec.QTrie.size c2 + Spec.QTrie.size c3)
    | 2 => 4 + 6 * (Spec.QTrie.size c1 + Spec.QTrie.size c2 + Spec.QTrie.size c3)
    | 3 => 3 + 6 * (Spec.QTrie.size c2 + Spec.QTrie.size c3)
    | 4 => 2 + 6 * Spec.QTrie.size c3
    | _ => 1

theorem workAt_zero {α : Type} (t : QTrie α) : workAt t 0 = 6 * Spec.QTrie.size t := by
  cases t with
  | nil => rfl
  | node d c0 c1 c2 c3 => simp [workAt, Spec.QTrie.size]; omega

def remAll {α : Type} : List (QTrie α × Nat) → List α
  | [] => []
  | e :: st => remAt e.1 e.2 ++ remAll st

def workAll {α : Type} : List (QTrie α × Nat) → Nat
  | [] => 0
  | e :: st => workAt e.1 e.2 + workAll st

/-- A chain of iterator nodes in memory. -/
def IterChain {α : Type} (mem : List (IterNode α)) : Option Nat → List Nat → Prop
  | none, [] => True
  | some h, g :: hs => h = g ∧ ∃ nd, mem[g]? = some nd ∧ IterChain mem nd.next hs
  | _, _ => False

/-- The chain carries the entries of the stack. -/
def IterHolds {α : Type} (mem : List (IterNode α)) : List Nat → List (QTrie α × Nat) → Prop
  | [], [] => True
  | h :: hs, e :: st => (∃ nd, mem[h]? = some nd ∧ nd.set = e.1 ∧ nd.index = e.2) ∧ IterHolds mem hs st
  | _, _ => False

/-- The iterator `it` stands for the stack `st`. -/
structure IterOK {α : Type} (it : Iter α) (st : List (QTrie α × Nat)) : Prop where
  chains : ∃ hs fs, IterChain it.mem it.head hs ∧ IterChain it.mem it.free fs ∧ (hs ++ fs).Nodup ∧ IterHolds it.mem hs st
  range : ∀ e ∈ st, e.2 ≤ 5 ∧ e.1 ≠ .nil

theorem IterChain.congr {α : Type} {mem mem' : List (IterNode α)} : ∀ {o : Option Nat} {hs : List Nat},
    IterChain mem o hs → (∀ h ∈ hs, mem'[h]? = mem[h]?) → IterChain mem' o hs := by
  intro o hs
  induction hs generalizing o with
  | nil => intro h _; cases o <;> exact h
  | cons g hs ih =>
    intro h he
    cases o with
    | none => exact h
    | some k =>
      obtain ⟨h1, nd, h2, h3⟩ := h
      exact ⟨h1, nd, by rw [he g (by simp)]; exact h2, ih h3 (fun x hx => he x (by simp [hx]))⟩

theorem IterHolds.congr {α : Type} {mem mem' : List (IterNode α)} : ∀ {hs : List Nat} {st : List (QTrie α × Nat)},
    IterHolds mem hs st → (∀ h ∈ hs, mem'[h]? = mem[h]?) → IterHolds mem' hs st := by
  intro hs
  induction hs with
  | nil => intro st h _; cases st <;> exact h
  | cons g hs ih =>
    intro st h he
    cases st with
    | nil => exact h
    | cons e st =>
      obtain ⟨⟨nd, h1, h2⟩, h3⟩ := h
      exact ⟨⟨nd, by rw [he g (by simp)]; exact h1, h2⟩, ih h3 (fun x hx => he x (by simp [hx]))⟩

theorem IterChain.lt {α : Type} {mem : List (IterNode α)} : ∀ {o : Option Nat} {hs : List Nat},
    IterChain mem o hs → ∀ h ∈ hs, h < mem.length := by
  intro o hs
  induction hs generalizing o with
  | nil => intro _ h hh; simp at hh
  | cons g hs ih =>
    intro h x hx
    cases o with
    | none => exact False.elim h
    | some k =>
      obtain ⟨h1, nd, h2, h3⟩ := h
      rcases List.mem_cons.1 hx with rfl | hx
      · exact (List.getElem?_eq_some_iff.1 h2).1
      · exact ih h3 x hx

theorem newIter_ok {α : Type} (t : QTrie α) :
    IterOK (newIter t) (if Spec.QTrie.size t = 0 then [] else [(t, 0)]) := by
  cases t with
  | nil => exact ⟨⟨[], [], trivial, trivial, by simp, trivial⟩, by simp [Spec.QTrie.size]⟩
  | node d c0 c1 c2 c3 =>
    rw [if_neg (by simp [Spec.QTrie.size])]
    refine ⟨⟨[0], [], ⟨rfl, ⟨none, _, 0⟩, rfl, trivial⟩, trivial, by simp, ⟨⟨_, rfl, rfl, rfl⟩, trivial⟩⟩, ?_⟩
    intro e he
    simp at he
    subst he
    exact ⟨by simp, by simp⟩

/-- Reading the top of the stack. -/
theorem IterOK.top {α : Type} {it : Iter α} {e : QTrie α × Nat} {st : List (QTrie α × Nat)} (h : IterOK it (e :: st)) :
    ∃ g hs fs nd, it.head = some g ∧ it.mem[g]? = some nd ∧ nd.set = e.1 ∧ nd.index = e.2 ∧ IterChain it.mem nd.next hs ∧
      IterChain it.mem it.free fs ∧ (g :: hs ++ fs).Nodup ∧ IterHolds it.mem hs st := by
  obtain ⟨hs, fs, h1, h2, h3, h4⟩ := h.chains
  cases hs with
  | nil => exact False.elim h4
  | cons g hs =>
    cases hh : it.head with
    | none => rw [hh] at h1; exact False.elim h1
    | some k =>
      rw [hh] at h1
      obtain ⟨rfl, nd, h5, h6⟩ := h1
      obtain ⟨⟨nd', h7, h8, h9⟩, h10⟩ := h4
      rw [h5] at h7
      cases h7
      exact ⟨k, hs, fs, nd, rfl, h5, h8, h9, h6, h2, h3, h10⟩

theorem set_other {α : Type} {l : List α} {g x : Nat} {a : α} (h : x ≠ g) : (l.set g a)[x]? = l[x]? := by
  rw [List.getElem?_set]
  rw [if_neg (fun e => h e.symm)]

/-- The step counter of the top entry goes up. -/
theorem IterOK.tick {α : Type} {it : Iter α} {e : QTrie α × Nat} {st : List (QTrie α × Nat)} (h : IterOK it (e :: st))
    (hlt : e.2 < 5) {g : Nat} {nd : IterNode α} (hg : it.head = some g) (hnd : it.mem[g]? = some nd) :
    IterOK (iterTick g nd it) ((e.1, e.2 + 1) :: st) := by
  obtain ⟨g', hs, fs, nd', h1, h2, h3, h4, h5, h6, h7, h8⟩ := h.top
  rw [hg] at h1
  cases h1
  rw [hnd] at h2
  cases h2
  have hlen : g < it.mem.length := (List.getElem?_eq_some_iff.1 hnd).1
  simp only [List.cons_append, List.nodup_cons, List.mem_append, not_or] at h7
  refine ⟨⟨g :: hs, fs, ?_, ?_, ?_, ?_⟩, ?_⟩
  · show IterChain _ it.head _
    rw [hg]
    refine ⟨rfl, { nd with index := nd.index + 1 }, by simp [iterTick, hlen], ?_⟩
    exact h5.congr (fun x hx => set_other (fun e => h7.1.1 (e ▸ hx)))
  · exact h6.congr (fun x hx => set_other (fun e => h7.1.2 (e ▸ hx)))
  · simp only [List.cons_append, List.nodup_cons, List.mem_append, not_or]; exact h7
  · refine ⟨⟨{ nd with index := nd.index + 1 }, by simp [iterTick, hlen], h3, by simp [h4]⟩, ?_⟩
    exact h8.congr (fun x hx => set_other (fun e => h7.1.1 (e ▸ hx)))
  · intro e' he'
    rcases List.mem_cons.1 he' with rfl | he'
    · exact ⟨by simp; omega, (h.range e (by simp)).2⟩
    · exact h.range e' (by simp [he'])

theorem IterOK.pop {α : Type} {it : Iter α} {e : QTrie α × Nat} {st : List (QTrie α × Nat)} (h : IterOK it (e :: st))
    {g : Nat} {nd : IterNode α} (hg : it.head = some g) (hnd : it.mem[g]? = some nd) : IterOK (iterPop g nd it) st := by
  obtain ⟨g', hs, fs, nd', h1, h2, h3, h4, h5, h6, h7, h8⟩ := h.top
  rw [hg] at h1
  cases h1
  rw [hnd] at h2
  cases h2
  have hlen : g < it.mem.length := (List.getElem?_eq_some_iff.1 hnd).1
  simp only [List.cons_append, List.nodup_cons, List.mem_append, not_or] at h7
  refine ⟨⟨hs, g :: fs, ?_, ?_, ?_, ?_⟩, fun e' he' => h.range e' (by simp [he'])⟩
  · exact h5.congr (fun x hx => set_other (fun e => h7.1.1 (e ▸ hx)))
  · refine ⟨rfl, { nd with next := it.free, index := nd.index + 1 }, by simp [iterPop, hlen], ?_⟩
    exact h6.congr (fun x hx => set_other (fun e => h7.1.2 (e ▸ hx)))
  · rw [List.nodup_append] at h7 ⊢
    obtain ⟨⟨h9, h10⟩, h11, h12, h13⟩ := h7
    refine ⟨h11, List.nodup_cons.2 ⟨h10, h12⟩, fun a ha b hb => ?_⟩
    rcases List.mem_cons.1 hb with rfl | hb
    · exact fun e => h9 (e ▸ ha)
    · exact h13 a ha b hb
  · exact h8.congr (fun x hx => set_other (fun e => h7.1.1 (e ▸ hx)))

theorem IterOK.push {α : Type} {it : Iter α} {st : List (QTrie α × Nat)} (h : IterOK it st) {g : Nat}
    (hg : it.head = some g) {c : QTrie α} (hc : c ≠ .nil) :
    ∃ it', iterPush g c it = .ok it' ∧ IterOK it' ((c, 0) :: st) := by
  obtain ⟨hs, fs, h1, h2, h3, h4⟩ := h.chains
  have hrange : ∀ e ∈ (c, 0) :: st, e.2 ≤ 5 ∧ e.1 ≠ .nil := by
    intro e he
    rcases List.mem_cons.1 he with rfl | he
    · exact ⟨by simp, hc⟩
    · exact h.range e he
  unfold iterPush
  cases hf : it.free with
  | none =>
    rw [hf] at h2
    cases fs with
    | cons f fs => exact False.elim h2
    | nil =>
      refine ⟨_, rfl, ⟨it.mem.length :: hs, [], ?_, trivial, ?_, ?_⟩, hrange⟩
      · refine ⟨rfl, ⟨some g, c, 0⟩, by simp, ?_⟩
        show IterChain _ (some g) hs
        rw [← hg]
        exact h1.congr (fun x hx => List.getElem?_append_left (h1.lt x hx))
      · simp only [List.append_nil, List.nodup_cons] at h3 ⊢
        exact ⟨fun hm => absurd (h1.lt _ hm) (by omega), h3⟩
      · refine ⟨⟨⟨some g, c, 0⟩, by simp, rfl, rfl⟩, ?_⟩
        exact h4.congr (fun x hx => List.getElem?_append_left (h1.lt x hx))
  | some f =>
    rw [hf] at h2
    cases fs with
    | nil => exact False.elim h2
    | cons f' fs =>
      obtain ⟨rfl, nd, h5, h6⟩ := h2
      dsimp only
      rw [h5]
      have hlen : f < it.mem.length := (List.getElem?_eq_some_iff.1 h5).1
      obtain ⟨h7, h8, h9⟩ := List.nodup_append.1 h3
      have hfh : ∀ x ∈ hs, x ≠ f := fun x hx => h9 x hx f (by simp)
      have hff : ∀ x ∈ fs, x ≠ f := fun x hx e => (List.nodup_cons.1 h8).1 (e ▸ hx)
      refine ⟨_, rfl, ⟨f :: hs, fs, ?_, ?_, ?_, ?_⟩, hrange⟩
      · refine ⟨rfl, ⟨some g, c, 0⟩, by simp [hlen], ?_⟩
        show IterChain _ (some g) hs
        rw [← hg]
        exact h1.congr (fun x hx => set_other (hfh x hx))
      · exact h6.congr (fun x hx => set_other (hff x hx))
      · simp only [List.cons_append, List.nodup_cons, List.mem_append, not_or]
        refine ⟨⟨fun e => hfh f e rfl, fun e => hff f e rfl⟩, List.nodup_append.2 ⟨h7, (List.nodup_cons.1 h8).2, ?_⟩⟩
        exact fun a ha b hb => h9 a ha b (by simp [hb])
      · refine ⟨⟨⟨some g, c, 0⟩, by simp [hlen], rfl, rfl⟩, ?_⟩
        exact h4.congr (fun x hx => set_other (hfh x hx))

/-- One round of the iterator's loop. -/
theorem iterStep_spec {α : Type} {it : Iter α} {e : QTrie α × Nat} {st : List (QTrie α × Nat)} (hI : IterOK it (e :: st))
    {g : Nat} {nd : IterNode α} (h1 : it.head = some g) (h2 : it.mem[g]? = some nd) :
    ∃ o it' st', iterStep g nd it = .ok (o, it') ∧ IterOK it' st' ∧ o.toList ++ remAll st' = remAll (e :: st) ∧
      workAll st' + 1 = workAll (e :: st) := by
  obtain ⟨g', hs, fs, nd', h1', h2', h3, h4, -⟩ := hI.top
  rw [h1] at h1'
  cases h1'
  rw [h2] at h2'
  cases h2'
  obtain ⟨t, i⟩ := e
  obtain ⟨hi, ht⟩ := hI.range (t, i) (by simp)
  dsimp only at h3 h4 hi ht
  cases t with
  | nil => exact absurd rfl ht
  | node d c0 c1 c2 c3 =>
    have hdown : ∀ (j : Nat) (c : QTrie α), i = j + 1 → i < 5 → (QTrie.node d c0 c1 c2 c3).child? j = some c →
        remAt (.node d c0 c1 c2 c3) i = c.toList ++ remAt (.node d c0 c1 c2 c3) (i + 1) →
        workAt (.node d c0 c1 c2 c3) i = 1 + 6 * Spec.QTrie.size c + workAt (.node d c0 c1 c2 c3) (i + 1) →
        ∃ o it' st', iterStep g nd it = .ok (o, it') ∧ IterOK it' st' ∧
          o.toList ++ remAll st' = remAll ((QTrie.node d c0 c1 c2 c3, i) :: st) ∧
          workAll st' + 1 = workAll ((QTrie.node d c0 c1 c2 c3, i) :: st) := by
      intro j c hj hi5 hch hrem hwk
      have hT := hI.tick hi5 h1 h2
      unfold iterStep
      rw [if_neg (by omega), if_neg (by omega), h3, h4]
      have e1 : i - 1 = j := by omega
      rw [e1, hch]
      unfold iterDown
      cases c with
      | nil =>
        refine ⟨none, _, _, rfl, hT, ?_, ?_⟩
        · simp only [remAll]; rw [hrem]; simp [QTrie.toList]
        · simp only [workAll]; simp only [Spec.QTrie.size] at hwk; omega
      | node d' e0 e1 e2 e3 =>
        obtain ⟨it', hp, hI'⟩ := hT.push (g := g) h1 (c := .node d' e0 e1 e2 e3) (by simp)
        dsimp only
        rw [hp]
        refine ⟨none, it', _, rfl, hI', ?_, ?_⟩
        · simp only [remAll]; rw [hrem, List.append_assoc]; rfl
        · simp only [workAll]; rw [workAt_zero]; omega
    obtain rfl | rfl | rfl | rfl | rfl | rfl : i = 0 ∨ i = 1 ∨ i = 2 ∨ i = 3 ∨ i = 4 ∨ i = 5 := by omega
    · have hT := hI.tick (by simp) h1 h2
      unfold iterStep
      rw [if_pos h4, h3]
      refine ⟨some d, _, _, rfl, hT, by simp [remAll, remAt], by simp [workAll, workAt]; omega⟩
    · exact hdown 0 c0 rfl (by omega) rfl rfl (by simp [workAt]; omega)
    · exact hdown 1 c1 rfl (by omega) rfl rfl (by simp [workAt]; omega)
    · exact hdown 2 c2 rfl (by omega) rfl rfl (by simp [workAt]; omega)
    · exact hdown 3 c3 rfl (by omega) rfl (by simp [remAt]) (by simp [workAt]; omega)
    · unfold iterStep
      rw [if_neg (by omega), if_pos h4]
      exact ⟨none, _, _, rfl, hI.pop h1 h2, by simp [remAll, remAt], by simp [workAll, workAt]; omega⟩

/-- One call of the iterator. -/
theorem nextIter_spec {α : Type} : ∀ (f : Nat) (it : Iter α) (st : List (QTrie α × Nat)), IterOK it st → workAll st < f →
    ∃ o it' st', nextIter f it = .ok (o, it') ∧ IterOK it' st' ∧ o.toList ++ remAll st' = remAll st ∧
      workAll st' ≤ workAll st ∧ (o = none → remAll st = []) := by
  intro f
  induction f with
  | zero => intro it st _ h; omega
  | succ f ih =>
    intro it st hI hw
    cases st with
    | nil =>
      obtain ⟨hs, fs, h1, h2, h3, h4⟩ := hI.chains
      cases hs with
      | cons a b => exact False.elim h4
      | nil =>
        have hh : it.head = none := by
          cases he : it.head with
          | none => rfl
          | some k => rw [he] at h1; exact False.elim h1
        exact ⟨none, it, [], by unfold nextIter; rw [hh], hI, rfl, Nat.le_refl _, fun _ => rfl⟩
    | cons e st =>
      obtain ⟨g, hs, fs, nd, h1, h2, h3, h4, -⟩ := hI.top
      obtain ⟨o, it', st', s1, s2, s3, s4⟩ := iterStep_spec hI h1 h2
      unfold nextIter
      rw [h1]
      dsimp only
      rw [h2]
      dsimp only
      rw [s1]
      simp only [Out.bind_ok]
      cases o with
      | some d => exact ⟨some d, it', st', rfl, s2, s3, by omega, by simp⟩
      | none =>
        obtain ⟨o, it'', st'', r1, r2, r3, r4, r5⟩ := ih it' st' s2 (by omega)
        dsimp only
        simp only [Option.toList_none, List.nil_append] at s3
        exact ⟨o, it'', st'', r1, r2, r3.trans s3, by omega, fun h => by rw [← s3]; exact r5 h⟩

theorem forEachTrie_spec {α : Type} (z : α → Bool) (f : Nat) : ∀ (n : Nat) (it : Iter α) (st : List (QTrie α × Nat)),
    IterOK it st → workAll st < f → (remAll st).length < n →
    forEachTrie z f n it = .ok ((remAll st).takeWhile (fun x => !z x)) := by
  intro n
  induction n with
  | zero => intro it st _ _ h; omega
  | succ n ih =>
    intro it st hI hw hn
    obtain ⟨o, it', st', h1, h2, h3, h4, h5⟩ := nextIter_spec f it st hI hw
    unfold forEachTrie
    rw [h1]
    simp only [Out.bind_ok]
    cases o with
    | none => rw [h5 rfl]; rfl
    | some x =>
      dsimp only
      rw [← h3] at hn ⊢
      by_cases hz : z x = true
      · rw [if_pos hz]; simp [List.takeWhile_cons, hz]
      · rw [if_neg hz, ih it' st' h2 (by omega) (by simp at hn; omega)]
        simp [List.takeWhile_cons, hz]

/-- Iterating a trie: its payloads in preorder, up to the first that looks like the end mark. -/
theorem elements_spec {α : Type} (z : α → Bool) (t : QTrie α) : elements z t = .ok (t.toList.takeWhile (fun x => !z x)) := by
  have hI := newIter_ok t
  unfold elements
  by_cases hs : Spec.QTrie.size t = 0
  · rw [if_pos hs] at hI
    have h0 : t.toList = [] := List.length_eq_zero_iff.1 (by rw [QTrie.length_toList, hs])
    rw [forEachTrie_spec z _ _ _ _ hI (by simp [workAll]) (by simp [remAll]), h0]
    rfl
  · rw [if_neg hs] at hI
    have hr : remAll [(t, 0)] = t.toList := by
      cases t with
      | nil => rfl
      | node d c0 c1 c2 c3 => simp [remAll, remAt, QTrie.toList]
    rw [forEachTrie_spec z _ _ _ _ hI (by simp [workAll, workAt_zero]) (by rw [hr, QTrie.length_toList]; omega), hr]

/-! ## Insertion -/

/-- Every payload is in the subtree its hash leads to. -/
def TriePlaced {α H : Type} (top : H → Nat) (shift : H → H) : (α → H) → QTrie α → Prop
  | _, .nil => True
  | f, .node _ c0 c1 c2 c3 =>
    (∀ e ∈ c0.toList, top (f e) = 0) ∧ (∀ e ∈ c1.toList, top (f e) = 1) ∧ (∀ e ∈ c2.toList, top (f e) = 2) ∧
    (∀ e ∈ c3.toList, top (f e) = 3) ∧
    TriePlaced top shift (fun e => shift (f e)) c0 ∧ TriePlaced top shift (fun e => shift (f e)) c1 ∧
    TriePlaced top shift (fun e => shift (f e)) c2 ∧ TriePlaced top shift (fun e => shift (f e)) c3

/-- One insertion: `same` decides a relation that determines the hash; at most one payload is related to the new one. -/
theorem QTrie.insert_spec {α H : Type} (full : Bool) (top : H → Nat) (shift : H → H) (htop : ∀ h, top h < 4) (same : α → Bool)
    (new : α) (hnew : same new = true) (t : QTrie α) : ∀ (f : α → H), (∀ d, same d = true → f d = f new) → TriePlaced top shift f t →
    (∃ d ∈ t.toList, same d = true ∧ t.insert full top shift same new (f new) = .ok (some d, t)) ∨
    ((∀ d ∈ t.toList, same d = false) ∧
      if full then t.insert full top shift same new (f new) = .longjmp
      else ∃ t', t.insert full top shift same new (f new) = .ok (none, t') ∧ t'.toList.Perm (new :: t.toList) ∧
        TriePlaced top shift f t') := by
  induction t with
  | nil =>
    intro f hf _
    right
    refine ⟨by simp [toList], ?_⟩
    unfold insert
    cases full with
    | true => simp
    | false =>
      simp only [Bool.false_eq_true, if_false]
      exact ⟨_, rfl, by simp [toList], by simp [TriePlaced, toList]⟩
  | node d c0 c1 c2 c3 i0 i1 i2 i3 =>
    intro f hf hP
    obtain ⟨p0, p1, p2, p3, q0, q1, q2, q3⟩ := hP
    have hsh : ∀ d, same d = true → shift (f d) = shift (f new) := fun d hd => by rw [hf d hd]
    unfold insert
    by_cases hd : same d = true
    · left
      exact ⟨d, by simp [toList], hd, by rw [if_pos hd]⟩
    · have hd' : same d = false := by simpa using hd
      rw [if_neg hd]
      have ht := htop (f new)
      -- the other subtrees hold nothing of the same key
      have hoth : ∀ (c : QTrie α) (i : Nat), (∀ e ∈ c.toList, top (f e) = i) → i ≠ top (f new) → ∀ e ∈ c.toList, same e = false := by
        intro c i hc hi e he
        by_contra hs
        have hs' : same e = true := by simpa using hs
        exact hi ((hc e he).symm.trans (by rw [hf e hs']))
      obtain h | h | h | h : top (f new) = 0 ∨ top (f new) = 1 ∨ top (f new) = 2 ∨ top (f new) = 3 := by omega
      · rw [h]
        rcases i0 (fun e => shift (f e)) hsh q0 with ⟨e, he, hse, hr⟩ | ⟨hno, hr⟩
        · left
          refine ⟨e, by simp [toList, he], hse, by rw [hr]; rfl⟩
        · right
          refine ⟨?_, ?_⟩
          · intro e he
            simp only [toList, List.mem_cons, List.mem_append] at he
            rcases he with rfl | he | he | he | he
            · exact hd'
            · exact hno e he
            · exact hoth c1 1 p1 (by omega) e he
            · exact hoth c2 2 p2 (by omega) e he
            · exact hoth c3 3 p3 (by omega) e he
          · cases full with
            | true => simp only [if_true] at hr ⊢; rw [hr]; rfl
            | false =>
              simp only [Bool.false_eq_true, if_false] at hr ⊢
              obtain ⟨t', h1, h2, h3⟩ := hr
              rw [h1]
              simp only [Out.bind_ok]
              refine ⟨_, rfl, ?_, ?_⟩
              · simp only [toList]
                exact ((h2.append_right _).cons d).trans (List.Perm.swap _ _ _)
              · exact ⟨fun e he => by
                  rcases List.mem_cons.1 (h2.mem_iff.1 he) with rfl | he
                  · exact h
                  · exact p0 e he, p1, p2, p3, h3, q1, q2, q3⟩
      · rw [h]
        rcases i1 (fun e => shift (f e)) hsh q1 with ⟨e, he, hse, hr⟩ | ⟨hno, hr⟩
        · left
          refine ⟨e, by simp [toList, he], hse, by rw [hr]; rfl⟩
        · right
          refine ⟨?_, ?_⟩
          · intro e he
            simp only [toList, List.mem_cons, List.mem_append] at he
            rcases he with rfl | he | he | he | he
            · exact hd'
            · exact hoth c0 0 p0 (by omega) e he
            · exact hno e he
            · exact hoth c2 2 p2 (by omega) e he
            · exact hoth c3 3 p3 (by omega) e he
          · cases full with
            | true => simp only [if_true] at hr ⊢; rw [hr]; rfl
            | false =>
              simp only [Bool.false_eq_true, if_false] at hr ⊢
              obtain ⟨t', h1, h2, h3⟩ := hr
              rw [h1]
              simp only [Out.bind_ok]
              refine ⟨_, rfl, ?_, ?_⟩
              · simp only [toList]
                refine (((h2.append_right _).append_left _).cons d).trans ?_
                refine ((List.perm_middle (l₁ := c0.toList)).cons d).trans (List.Perm.swap _ _ _)
              · exact ⟨p0, fun e he => by
                  rcases List.mem_cons.1 (h2.mem_iff.1 he) with rfl | he
                  · exact h
                  · exact p1 e he, p2, p3, q0, h3, q2, q3⟩
      · rw [h]
        rcases i2 (fun e => shift (f e)) hsh q2 with ⟨e, he, hse, hr⟩ | ⟨hno, hr⟩
        · left
          refine ⟨e, by simp [toList, he], hse, by rw [hr]; rfl⟩
        · right
          refine ⟨?_, ?_⟩
          · intro e he
            simp only [toList, List.mem_cons, List.mem_append] at he
            rcases he with rfl | he | he | he | he
            · exact hd'
            · exact hoth c0 0 p0 (by omega) e he
            · exact hoth c1 1 p1 (by omega) e he
            · exact hno e he
            · exact hoth c3 3 p3 (by omega) e he
          · cases full with
            | true => simp only [if_true] at hr ⊢; rw [hr]; rfl
            | false =>
              simp only [Bool.false_eq_true, if_false] at hr ⊢
              obtain ⟨t', h1, h2, h3⟩ := hr
              rw [h1]
              simp only [Out.bind_ok]
              refine ⟨_, rfl, ?_, ?_⟩
              · simp only [toList]
                have e1 : ∀ (m : List α), c0.toList ++ (c1.toList ++ (m ++ c3.toList)) = (c0.toList ++ c1.toList) ++ (m ++ c3.toList) :=
                  fun m => by simp
                rw [e1, e1]
                refine (((h2.append_right _).append_left _).cons d).trans ?_
                refine ((List.perm_middle (l₁ := c0.toList ++ c1.toList)).cons d).trans (List.Perm.swap _ _ _)
              · exact ⟨p0, p1, fun e he => by
                  rcases List.mem_cons.1 (h2.mem_iff.1 he) with rfl | he
                  · exact h
                  · exact p2 e he, p3, q0, q1, h3, q3⟩
      · rw [h]
        rcases i3 (fun e => shift (f e)) hsh q3 with ⟨e, he, hse, hr⟩ | ⟨hno, hr⟩
        · left
          refine ⟨e, by simp [toList, he], hse, by rw [hr]; rfl⟩
        · right
          refine ⟨?_, ?_⟩
          · intro e he
            simp only [toList, List.mem_cons, List.mem_append] at he
            rcases he with rfl | he | he | he | he
            · exact hd'
            · exact hoth c0 0 p0 (by omega) e he
            · exact hoth c1 1 p1 (by omega) e he
            · exact hoth c2 2 p2 (by omega) e he
            · exact hno e he
          · cases full with
            | true => simp only [if_true] at hr ⊢; rw [hr]; rfl
            | false =>
              simp only [Bool.false_eq_true, if_false] at hr ⊢
              obtain ⟨t', h1, h2, h3⟩ := hr
              rw [h1]
              simp only [Out.bind_ok]
              refine ⟨_, rfl, ?_, ?_⟩
              · simp only [toList]
                have e1 : ∀ (m : List α), c0.toList ++ (c1.toList ++ (c2.toList ++ m)) = (c0.toList ++ c1.toList ++ c2.toList) ++ m :=
                  fun m => by simp
                rw [e1, e1]
                refine ((h2.append_left _).cons d).trans ?_
                refine ((List.perm_middle (l₁ := c0.toList ++ c1.toList ++ c2.toList)).cons d).trans (List.Perm.swap _ _ _)
              · exact ⟨p0, p1, p2, fun e he => by
                  rcases List.mem_cons.1 (h2.mem_iff.1 he) with rfl | he
                  · exact h
                  · exact p3 e he, q0, q1, q2, h3⟩

theorem top64_lt (h : UInt64) : top64 h < 4 := by
  unfold top64
  rw [UInt64.toNat_shiftRight]
  have := h.toNat_lt
  simp [Nat.shiftRight_eq_div_pow]
  omega

theorem top16_lt (h : UInt16) : top16 h < 4 := by
  unfold top16
  rw [UInt16.toNat_shiftRight]
  have := h.toNat_lt
  simp [Nat.shiftRight_eq_div_pow]
  omega

end Flo
