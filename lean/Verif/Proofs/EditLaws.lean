import Verif.Props.AttrLaws
import Verif.Proofs.PageQuery
/-!
# Lemmas for the laws of the editing functions (C123)
-/
namespace Flo
open Spec
namespace Laws

mutual
theorem within_within {p : Nat} {f g : List PTree → List PTree} : ∀ t : PTree, (t.within p f).within p g = t.within p (fun ks => g (f ks))
  | .node m l ks => by
    rw [PTree.within, PTree.within, PTree.within]
    by_cases e : m = p
    · rw [if_pos e, if_pos e, if_pos e]
    · rw [if_neg e, if_neg e, if_neg e, withinAll_within ks]
theorem withinAll_within {p : Nat} {f g : List PTree → List PTree} : ∀ ts : List PTree,
    withinAll p g (withinAll p f ts) = withinAll p (fun ks => g (f ks)) ts
  | [] => rfl
  | t :: ts => by rw [withinAll, withinAll, withinAll, within_within t, withinAll_within ts]
end

mutual
/-- Only what is done with the children `p` has matters. -/
theorem within_congr {p : Nat} {cs : List Nat} {f g : List PTree → List PTree} (hf : ∀ ks, ks.map PTree.id = cs → f ks = g ks) :
    ∀ t : PTree, (∀ l c, (p, l, c) ∈ t.rows → c = cs) → t.within p f = t.within p g
  | .node m l ks, h => by
    rw [PTree.within, PTree.within]
    by_cases e : m = p
    · rw [if_pos e, if_pos e, hf ks (h l _ (by rw [PTree.rows, e]; exact .head _))]
    · rw [if_neg e, if_neg e, withinAll_congr hf ks (fun l c hm => h l c (by rw [PTree.rows]; exact .tail _ hm))]
theorem withinAll_congr {p : Nat} {cs : List Nat} {f g : List PTree → List PTree} (hf : ∀ ks, ks.map PTree.id = cs → f ks = g ks) :
    ∀ ts : List PTree, (∀ l c, (p, l, c) ∈ rowsAll ts → c = cs) → withinAll p f ts = withinAll p g ts
  | [], _ => rfl
  | t :: ts, h => by
    rw [withinAll, withinAll, within_congr hf t (fun l c hm => h l c (by rw [rowsAll]; exact List.mem_append_left _ hm)),
      withinAll_congr hf ts (fun l c hm => h l c (by rw [rowsAll]; exact List.mem_append_right _ hm))]
end

mutual
theorem within_entry {p : Nat} {l : Label} {g : List PTree → List PTree} : ∀ t : PTree, t.ids.Nodup → (p, l) ∈ t.entries →
    (p, l) ∈ (t.within p g).entries
  | .node m l' ks, hnd, h => by
    rw [ids_node, List.nodup_cons] at hnd
    rw [PTree.entries, List.mem_cons] at h
    rw [PTree.within, PTree.entries, List.mem_cons]
    rcases h with h | h
    · exact .inl h
    · have hm : p ∈ idsAll ks := List.mem_map.mpr ⟨_, h, rfl⟩
      have e : m ≠ p := fun e => hnd.1 (e ▸ hm)
      rw [if_neg e]
      exact .inr (withinAll_entry ks hnd.2 h)
theorem withinAll_entry {p : Nat} {l : Label} {g : List PTree → List PTree} : ∀ ts : List PTree, (idsAll ts).Nodup → (p, l) ∈ entriesAll ts →
    (p, l) ∈ entriesAll (withinAll p g ts)
  | [], _, h => by cases h
  | t :: ts, hnd, h => by
    rw [idsAll_cons] at hnd
    obtain ⟨n1, n2, _⟩ := List.nodup_append.mp hnd
    rw [entriesAll, List.mem_append] at h
    rw [withinAll, entriesAll, List.mem_append]
    rcases h with h | h
    · exact .inl (within_entry t n1 h)
    · exact .inr (withinAll_entry ts n2 h)
end

mutual
theorem row_ids {p n : Nat} {l : Label} {cs : List Nat} (hn : n ∈ cs) : ∀ t : PTree, (p, l, cs) ∈ t.rows → p ∈ t.ids ∧ n ∈ t.ids.tail
  | .node m l' ks, h => by
    rw [PTree.rows, List.mem_cons] at h
    rw [ids_node]
    rcases h with h | h
    · cases h
      exact ⟨.head _, tops_mem hn⟩
    · obtain ⟨h1, h2⟩ := rowAll_ids hn ks h
      exact ⟨.tail _ h1, h2⟩
theorem rowAll_ids {p n : Nat} {l : Label} {cs : List Nat} (hn : n ∈ cs) : ∀ ts : List PTree, (p, l, cs) ∈ rowsAll ts → p ∈ idsAll ts ∧ n ∈ idsAll ts
  | [], h => by cases h
  | t :: ts, h => by
    rw [rowsAll, List.mem_append] at h
    rw [idsAll_cons, List.mem_append, List.mem_append]
    rcases h with h | h
    · obtain ⟨h1, h2⟩ := row_ids hn t h
      exact ⟨.inl h1, .inl (List.mem_of_mem_tail h2)⟩
    · obtain ⟨h1, h2⟩ := rowAll_ids hn ts h
      exact ⟨.inr h1, .inr h2⟩
end

mutual
/-- Putting something in the place of a child of `p` is changing the children of `p`. -/
theorem instead_parent {p n : Nat} {l : Label} {cs : List Nat} {f : List PTree → List PTree → List PTree} (hn : n ∈ cs) : ∀ t : PTree, t.ids.Nodup →
    (p, l, cs) ∈ t.rows → t.instead n f = t.within p (fun ks => ((around n ks).map fun x => f x.1 x.2).getD ks)
  | .node m l' ks, hnd, h => by
    rw [ids_node, List.nodup_cons] at hnd
    rw [PTree.rows, List.mem_cons] at h
    rw [PTree.instead, PTree.within]
    rcases h with h | h
    · cases h
      rw [if_pos rfl]
      cases ha : around n ks with
      | some x => rfl
      | none => exact absurd hn (around_none.mp ha)
    · obtain ⟨hp, _⟩ := rowAll_ids hn ks h
      rw [if_neg (fun e : m = p => hnd.1 (e ▸ hp))]
      obtain ⟨h1, h2⟩ := insteadAll_parent (f := f) hn ks hnd.2 h
      rw [around_none.mpr h1, h2]
theorem insteadAll_parent {p n : Nat} {l : Label} {cs : List Nat} {f : List PTree → List PTree → List PTree} (hn : n ∈ cs) : ∀ ts : List PTree,
    (idsAll ts).Nodup → (p, l, cs) ∈ rowsAll ts →
    n ∉ ts.map PTree.id ∧ insteadAll n f ts = withinAll p (fun ks => ((around n ks).map fun x => f x.1 x.2).getD ks) ts
  | [], _, h => by cases h
  | t :: ts, hnd, h => by
    rw [idsAll_cons] at hnd
    obtain ⟨n1, n2, n3⟩ := List.nodup_append.mp hnd
    rw [rowsAll, List.mem_append] at h
    rw [insteadAll, withinAll, List.map_cons, List.mem_cons]
    rcases h with h | h
    · obtain ⟨hp, hnt⟩ := row_ids hn t h
      have hout : ∀ x ∈ t.ids, x ∉ idsAll ts := fun x hx hx' => n3 x hx x hx' rfl
      refine ⟨?_, ?_⟩
      · rintro (e | hm)
        · cases t with
          | node m l' ks =>
            rw [ids_node] at n1 hnt
            exact (List.nodup_cons.mp n1).1 (by have e : n = m := e; rw [← e]; exact hnt)
        · exact hout n (List.mem_of_mem_tail hnt) (tops_mem hm)
      · rw [instead_parent hn t n1 h, insteadAll_out ts (hout n (List.mem_of_mem_tail hnt)), withinAll_out ts (hout p hp)]
    · obtain ⟨hp, hnt⟩ := rowAll_ids hn ts h
      have hout : ∀ x ∈ idsAll ts, x ∉ t.ids := fun x hx hx' => n3 x hx' x hx rfl
      obtain ⟨h1, h2⟩ := insteadAll_parent (f := f) hn ts n2 h
      refine ⟨?_, ?_⟩
      · rintro (e | hm)
        · exact hout n hnt (by rw [e]; exact id_mem t)
        · exact h1 hm
      · rw [h2, instead_out t (hout n hnt), within_out t (hout p hp)]
end

mutual
theorem number_plain : ∀ (t : Tree) (k : Nat), (t.number k).plain = t
  | .text raw, k => rfl
  | .elem tag ps bs ts, k => by rw [Tree.number, PTree.plain, numberAll_plain ts]
theorem numberAll_plain : ∀ (ts : List Tree) (k : Nat), plainAll (numberAll k ts) = ts
  | [], k => rfl
  | t :: ts, k => by rw [numberAll, plainAll, number_plain t, numberAll_plain ts]
end

mutual
theorem within_plain {p : Nat} {f g : List PTree → List PTree} (h : ∀ ks, plainAll (f ks) = plainAll (g ks)) : ∀ t : PTree,
    (t.within p f).plain = (t.within p g).plain
  | .node m l ks => by
    rw [PTree.within, PTree.within]
    cases l with
    | text raw => rw [PTree.plain, PTree.plain]
    | elem tag ps bs =>
      rw [PTree.plain, PTree.plain]
      by_cases e : m = p
      · rw [if_pos e, if_pos e, h]
      · rw [if_neg e, if_neg e, withinAll_plain h ks]
    | root =>
      rw [PTree.plain, PTree.plain]
      by_cases e : m = p
      · rw [if_pos e, if_pos e, h]
      · rw [if_neg e, if_neg e, withinAll_plain h ks]
theorem withinAll_plain {p : Nat} {f g : List PTree → List PTree} (h : ∀ ks, plainAll (f ks) = plainAll (g ks)) : ∀ ts : List PTree,
    plainAll (withinAll p f ts) = plainAll (withinAll p g ts)
  | [] => rfl
  | t :: ts => by rw [withinAll, withinAll, plainAll, plainAll, within_plain h t, withinAll_plain h ts]
end

mutual
/-- Changing what a child of `p` is, is changing the children of `p`. -/
theorem relabel_parent {p n : Nat} {l : Label} {cs : List Nat} {f : Label → Label} (hn : n ∈ cs) : ∀ t : PTree, t.ids.Nodup →
    (p, l, cs) ∈ t.rows → t.relabel n f = t.within p (relabelAll n f)
  | .node m l' ks, hnd, h => by
    rw [ids_node, List.nodup_cons] at hnd
    rw [PTree.rows, List.mem_cons] at h
    rw [PTree.relabel, PTree.within]
    rcases h with h | h
    · cases h
      rw [if_pos rfl, if_neg (by rintro rfl; exact hnd.1 (tops_mem hn))]
    · obtain ⟨hp, hn'⟩ := rowAll_ids hn ks h
      rw [if_neg (fun e : m = p => hnd.1 (e ▸ hp)), if_neg (fun e : m = n => hnd.1 (e ▸ hn')), relabelAll_parent hn ks hnd.2 h]
theorem relabelAll_parent {p n : Nat} {l : Label} {cs : List Nat} {f : Label → Label} (hn : n ∈ cs) : ∀ ts : List PTree,
    (idsAll ts).Nodup → (p, l, cs) ∈ rowsAll ts → relabelAll n f ts = withinAll p (relabelAll n f) ts
  | [], _, h => by cases h
  | t :: ts, hnd, h => by
    rw [idsAll_cons] at hnd
    obtain ⟨n1, n2, n3⟩ := List.nodup_append.mp hnd
    rw [rowsAll, List.mem_append] at h
    rw [relabelAll, withinAll]
    rcases h with h | h
    · obtain ⟨hp, hnt⟩ := row_ids hn t h
      have hout : ∀ x ∈ t.ids, x ∉ idsAll ts := fun x hx hx' => n3 x hx x hx' rfl
      rw [relabel_parent hn t n1 h, relabelAll_out ts (hout n (List.mem_of_mem_tail hnt)), withinAll_out ts (hout p hp)]
    · obtain ⟨hp, hnt⟩ := rowAll_ids hn ts h
      have hout : ∀ x ∈ idsAll ts, x ∉ t.ids := fun x hx hx' => n3 x hx' x hx rfl
      rw [relabelAll_parent hn ts n2 h, relabel_out t (hout n hnt), within_out t (hout p hp)]
end

mutual
/-- As `within_congr`, for functions that agree on the children `p` has. -/
theorem within_sub {E : List (Nat × Label)} {p : Nat} {cs : List Nat} {f g : List PTree → List PTree}
    (hf : ∀ ks, ks.map PTree.id = cs → (∀ x ∈ entriesAll ks, x ∈ E) → (idsAll ks).Nodup → f ks = g ks) :
    ∀ t : PTree, (∀ l c, (p, l, c) ∈ t.rows → c = cs) → (∀ x ∈ t.entries, x ∈ E) → t.ids.Nodup → t.within p f = t.within p g
  | .node m l ks, h, he, hnd => by
    rw [ids_node, List.nodup_cons] at hnd
    have he' : ∀ x ∈ entriesAll ks, x ∈ E := fun x hx => he x (by rw [PTree.entries]; exact .tail _ hx)
    rw [PTree.within, PTree.within]
    by_cases e : m = p
    · rw [if_pos e, if_pos e, hf ks (h l _ (by rw [PTree.rows, e]; exact .head _)) he' hnd.2]
    · rw [if_neg e, if_neg e, withinAll_sub hf ks (fun l c hm => h l c (by rw [PTree.rows]; exact .tail _ hm)) he' hnd.2]
theorem withinAll_sub {E : List (Nat × Label)} {p : Nat} {cs : List Nat} {f g : List PTree → List PTree}
    (hf : ∀ ks, ks.map PTree.id = cs → (∀ x ∈ entriesAll ks, x ∈ E) → (idsAll ks).Nodup → f ks = g ks) :
    ∀ ts : List PTree, (∀ l c, (p, l, c) ∈ rowsAll ts → c = cs) → (∀ x ∈ entriesAll ts, x ∈ E) → (idsAll ts).Nodup →
      withinAll p f ts = withinAll p g ts
  | [], _, _, _ => rfl
  | t :: ts, h, he, hnd => by
    rw [idsAll_cons] at hnd
    obtain ⟨n1, n2, _⟩ := List.nodup_append.mp hnd
    rw [withinAll, withinAll, within_sub hf t (fun l c hm => h l c (by rw [rowsAll]; exact List.mem_append_left _ hm))
        (fun x hx => he x (by rw [entriesAll]; exact List.mem_append_left _ hx)) n1,
      withinAll_sub hf ts (fun l c hm => h l c (by rw [rowsAll]; exact List.mem_append_right _ hm))
        (fun x hx => he x (by rw [entriesAll]; exact List.mem_append_right _ hx)) n2]
end

theorem relabelAll_append {n : Nat} {f : Label → Label} : ∀ A B : List PTree, relabelAll n f (A ++ B) = relabelAll n f A ++ relabelAll n f B
  | [], _ => rfl
  | t :: A, B => by rw [List.cons_append, relabelAll, relabelAll, relabelAll_append A B]; rfl

theorem idsAll_append : ∀ A B : List PTree, idsAll (A ++ B) = idsAll A ++ idsAll B
  | [], _ => rfl
  | t :: A, B => by rw [List.cons_append, idsAll_cons, idsAll_cons, idsAll_append A B, List.append_assoc]

theorem entriesAll_append : ∀ A B : List PTree, entriesAll (A ++ B) = entriesAll A ++ entriesAll B
  | [], _ => rfl
  | t :: A, B => by rw [List.cons_append, entriesAll, entriesAll, entriesAll_append A B, List.append_assoc]

/-- A node is one thing. -/
theorem entry_unique {t : PTree} (h : t.ids.Nodup) {n : Nat} {l l' : Label} (h1 : (n, l) ∈ t.entries) (h2 : (n, l') ∈ t.entries) : l = l' :=
  (Prod.mk.inj (List.inj_on_of_nodup_map h h1 h2 rfl)).2

theorem appended_text {E : List (Nat × Label)} {cs : List Nat} {k m : Nat} {raw t : Str} {ks : List PTree}
    (hE : ∀ l, (k, l) ∈ E → l = .text raw) (h1 : ks.map PTree.id = cs ++ [k]) (h2 : ∀ x ∈ entriesAll ks, x ∈ E) (h3 : (idsAll ks).Nodup) :
    between ks [.node m (.text t) []] [] = relabelAll k (Label.addText t true) ks := by
  rw [List.map_eq_append_iff] at h1
  obtain ⟨A, B, rfl, e1, e2⟩ := h1
  rw [List.map_eq_cons_iff] at e2
  obtain ⟨⟨k', l, us⟩, B', rfl, e3, e4⟩ := e2
  rw [List.map_eq_nil_iff] at e4
  subst e4
  have e3 : k' = k := e3
  subst e3
  have hl := hE l (h2 _ (by rw [entriesAll_append]; exact List.mem_append_right _ (by rw [entriesAll, PTree.entries]; exact .head _)))
  subst hl
  rw [idsAll_append, idsAll_cons, ids_node] at h3
  obtain ⟨_, n2, n3⟩ := List.nodup_append.mp h3
  have hA : k' ∉ idsAll A := fun hx => n3 k' hx k' (.head _) rfl
  have hus : k' ∉ idsAll us := fun hx => (List.nodup_cons.mp n2).1 (List.mem_append_left _ hx)
  rw [relabelAll_append, relabelAll_out A hA, relabelAll, PTree.relabel, if_pos rfl, relabelAll_out us hus]
  simp [between, mergeLeft, mergeRight, relabelAll, Label.addText]

theorem prepended_text {E : List (Nat × Label)} {cs : List Nat} {k m : Nat} {raw t : Str} {ks : List PTree}
    (hE : ∀ l, (k, l) ∈ E → l = .text raw) (h1 : ks.map PTree.id = k :: cs) (h2 : ∀ x ∈ entriesAll ks, x ∈ E) (h3 : (idsAll ks).Nodup) :
    between [] [.node m (.text t) []] ks = relabelAll k (Label.addText t false) ks := by
  rw [List.map_eq_cons_iff] at h1
  obtain ⟨⟨k', l, us⟩, B, rfl, e3, e4⟩ := h1
  have e3 : k' = k := e3
  subst e3
  have hl := hE l (h2 _ (by rw [entriesAll, PTree.entries]; exact .head _))
  subst hl
  rw [idsAll_cons, ids_node] at h3
  obtain ⟨n1, n2, n3⟩ := List.nodup_append.mp h3
  have hB : k' ∉ idsAll B := fun hx => n3 k' (.head _) k' hx rfl
  rw [relabelAll, PTree.relabel, if_pos rfl, relabelAll_out us (List.nodup_cons.mp n1).1, relabelAll_out B hB]
  simp [between, mergeLeft, mergeRight, Label.addText]

end Laws
end Flo
