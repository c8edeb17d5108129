import Verif.Proofs.PageMerge
/-!
# New nodes are numbered in document order (C95)
-/
namespace Flo
open Spec

mutual
/-- The child lists are those of the tree. -/
def Spec.PTree.Num (c : Nat → List Nat) : PTree → Prop
  | .node n _ ks => c n = ks.map PTree.id ∧ NumAll c ks
def NumAll (c : Nat → List Nat) : List PTree → Prop
  | [] => True
  | t :: ts => t.Num c ∧ NumAll c ts
end

theorem numAll_append {c : Nat → List Nat} : ∀ {a b : List PTree}, NumAll c (a ++ b) ↔ NumAll c a ∧ NumAll c b
  | [], b => by simp [NumAll]
  | t :: a, b => by simp [NumAll, numAll_append (a := a), and_assoc]

mutual
theorem num_of_order {d : Dom} {ch : Nat → List Nat} {N lo : Nat} (hu : Up N ch) :
    ∀ (t : Tree) (n : Nat) (rest : List Nat) (s cnt : Nat), RepC d ch lo N t n →
      pre N ch n ++ rest = List.range' s cnt →
      n = s ∧ (t.number s).Num ch ∧ rest = List.range' (s + t.size) (cnt - t.size) ∧ t.size ≤ cnt
  | .text raw, n, rest, s, cnt, h, he => by
    simp only [RepC] at h
    rw [pre_eq hu h.2.1, h.2.2.2] at he
    cases cnt with
    | zero => simp at he
    | succ k =>
      rw [List.range'_succ] at he
      simp only [List.flatMap_nil, List.cons_append, List.nil_append, List.cons.injEq] at he
      obtain ⟨rfl, rfl⟩ := he
      simp only [Tree.number, PTree.Num, NumAll, Tree.size]
      exact ⟨trivial, ⟨by rw [h.2.2.2]; rfl, trivial⟩, by simp, by omega⟩
  | .elem tag ps bs ts, n, rest, s, cnt, h, he => by
    simp only [RepC] at h
    rw [pre_eq hu h.2.1] at he
    cases cnt with
    | zero => simp at he
    | succ k =>
      rw [List.range'_succ] at he
      simp only [List.cons_append, List.cons.injEq] at he
      obtain ⟨rfl, he⟩ := he
      obtain ⟨i1, i2, i3, i4⟩ := numAll_of_order hu ts (ch n) rest (n + 1) k h.2.2.2.2.2 he
      simp only [Tree.number, PTree.Num, Tree.size]
      refine ⟨trivial, ⟨i1, i2⟩, ?_, by omega⟩
      rw [i3]
      congr 1 <;> omega
theorem numAll_of_order {d : Dom} {ch : Nat → List Nat} {N lo : Nat} (hu : Up N ch) :
    ∀ (ts : List Tree) (ns : List Nat) (rest : List Nat) (s cnt : Nat), RepCL d ch lo N ts ns →
      ns.flatMap (pre N ch) ++ rest = List.range' s cnt →
      ns = (numberAll s ts).map PTree.id ∧ NumAll ch (numberAll s ts) ∧
        rest = List.range' (s + sizeAll ts) (cnt - sizeAll ts) ∧ sizeAll ts ≤ cnt
  | [], [], rest, s, cnt, h, he => by
    simp only [List.flatMap_nil, List.nil_append] at he
    simp [numberAll, NumAll, sizeAll, he]
  | [], _ :: _, _, _, _, h, _ => by simp [RepCL] at h
  | _ :: _, [], _, _, _, h, _ => by simp [RepCL] at h
  | t :: ts, n :: ns, rest, s, cnt, h, he => by
    simp only [RepCL] at h
    rw [List.flatMap_cons, List.append_assoc] at he
    obtain ⟨a1, a2, a3, a4⟩ := num_of_order hu t n _ s cnt h.1 he
    obtain ⟨b1, b2, b3, b4⟩ := numAll_of_order hu ts ns rest _ _ h.2 a3
    rw [numberAll, List.map_cons, Tree.number_id]
    simp only [NumAll, sizeAll]
    refine ⟨by rw [a1, ← b1], ⟨a2, b2⟩, ?_, by omega⟩
    rw [b3]
    congr 1 <;> omega
end

mutual
theorem num_ge {c c' : Nat → List Nat} {N : Nat} (hc : ∀ q, N ≤ q → c' q = c q) : ∀ (t : Tree) (k : Nat), N ≤ k →
    (t.number k).Num c → (t.number k).Num c'
  | .text raw, k, hk, h => by
    simp only [Tree.number, PTree.Num] at h ⊢
    exact ⟨by rw [hc k hk]; exact h.1, trivial⟩
  | .elem tag ps bs ts, k, hk, h => by
    simp only [Tree.number, PTree.Num] at h ⊢
    exact ⟨by rw [hc k hk]; exact h.1, numAll_ge hc ts (k + 1) (by omega) h.2⟩
theorem numAll_ge {c c' : Nat → List Nat} {N : Nat} (hc : ∀ q, N ≤ q → c' q = c q) : ∀ (ts : List Tree) (k : Nat), N ≤ k →
    NumAll c (numberAll k ts) → NumAll c' (numberAll k ts)
  | [], _, _, _ => trivial
  | t :: ts, k, hk, h => by
    simp only [numberAll, NumAll] at h ⊢
    exact ⟨num_ge hc t k hk h.1, numAll_ge hc ts _ (by omega) h.2⟩
end

mutual
theorem shown_of_rep {d : Dom} : ∀ (t : Tree) (k : Nat), Rep d t k → (t.number k).Num (kids d) → (t.number k).Shown d
  | .text raw, k, h, hn => by
    simp only [Rep, Tree.number, PTree.Shown, PTree.Num] at h hn ⊢
    exact ⟨h.1, h.2, fun _ => trivial, trivial⟩
  | .elem tag ps bs ts, k, h, hn => by
    simp only [Rep, Tree.number, PTree.Shown, PTree.Num] at h hn ⊢
    refine ⟨⟨h.1, h.2.1, h.2.2.1⟩, hn.1, (fun hx => by simp [Label.isText] at hx), shownAll_of_rep ts _ _ h.2.2.2 hn.1 hn.2⟩
theorem shownAll_of_rep {d : Dom} : ∀ (ts : List Tree) (k : Nat) (ns : List Nat), RepL d ts ns →
    ns = (numberAll k ts).map PTree.id → NumAll (kids d) (numberAll k ts) → ShownAll d (numberAll k ts)
  | [], _, _, _, _, _ => trivial
  | t :: ts, k, ns, h, he, hn => by
    rw [numberAll, List.map_cons, Tree.number_id] at he
    subst he
    simp only [RepL, numberAll, NumAll, ShownAll] at h hn ⊢
    exact ⟨shown_of_rep t k h.1 hn.1, shownAll_of_rep ts _ _ h.2 rfl hn.2⟩
end

theorem Parsed.flat {d d1 : Dom} {ch c1 : Nat → List Nat} (P : Parsed d ch d1 c1) :
    (c1 0).flatMap (pre d1.nodes.length c1) ++ [] = List.range' d.nodes.length (d1.nodes.length - d.nodes.length) := by
  have h2 := P.inv.linked.two
  have := P.order
  rw [pre_eq P.inv.linked.up (by omega)] at this
  rw [List.append_nil]
  exact (List.cons.inj this).2

/-- The inserted nodes carry the numbers of the page. -/
theorem FromParse.numbers {d d' : Dom} {ch : Nat → List Nat} {F F1 F2 : List Tree} {new : List Nat}
    (h : FromParse d ch F F1 F2 new d') (h1 : F1 = F ∨ ∃ t, F = .text t :: F1) (h2 : F2 = F1 ∨ ∃ t, F1 = F2 ++ [.text t])
    (hr : RepL d' F2 new) :
    new = (numberAll (d.nodes.length + (F.length - F1.length)) F2).map PTree.id ∧
      ShownAll d' (numberAll (d.nodes.length + (F.length - F1.length)) F2) ∧
      d'.nodes.length = d.nodes.length + sizeAll F := by
  obtain ⟨d1, c1, P, rep, hk, hlen, hnew⟩ := h
  obtain ⟨n1, n2, n3, n4⟩ := numAll_of_order P.inv.linked.up _ _ _ _ _ rep P.flat
  have hle := P.le
  have hsz : d1.nodes.length - d.nodes.length = sizeAll F := by
    have := congrArg List.length n3
    simp at this
    omega
  have key : ∃ a b, numberAll d.nodes.length F = a ++ numberAll (d.nodes.length + (F.length - F1.length)) F2 ++ b ∧
      a.length = F.length - F1.length := by
    have s1 : ∃ a, numberAll d.nodes.length F = a ++ numberAll (d.nodes.length + (F.length - F1.length)) F1 ∧
        a.length = F.length - F1.length := by
      rcases h1 with rfl | ⟨t, rfl⟩
      · exact ⟨[], by simp⟩
      · refine ⟨[.node d.nodes.length (.text t) []], ?_, by simp⟩
        rw [numberAll, Tree.number, Tree.size]
        simp
    obtain ⟨a, e, ha⟩ := s1
    rcases h2 with rfl | ⟨t, rfl⟩
    · exact ⟨a, [], by rw [e, List.append_nil], ha⟩
    · rw [numberAll_append, ← List.append_assoc] at e
      exact ⟨a, _, e, ha⟩
  obtain ⟨a, b, e, ha⟩ := key
  have hnew' : new = (numberAll (d.nodes.length + (F.length - F1.length)) F2).map PTree.id := by
    rw [hnew, n1, e, ← ha]
    simp only [List.map_append, List.append_assoc]
    rw [List.drop_left' (by simp), List.take_left' (by simp [numberAll_length])]
  rw [e, numAll_append, numAll_append] at n2
  refine ⟨hnew', shownAll_of_rep _ _ _ hr hnew' (numAll_ge hk _ _ (by omega) n2.1.2), ?_⟩
  omega

end Flo
