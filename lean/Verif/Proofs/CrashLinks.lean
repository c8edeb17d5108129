import Verif.Proofs.CrashPrepend
import Verif.Proofs.Print
/-!
# Every linked document can be printed; what failing link updates leave (C129)
-/
namespace Flo.Crash
open Spec CM

/-! ## Printing -/

section
variable {d : Dom} {ch : Nat → List Nat}

theorem kids_print (h : DomI d ch) {p : Nat} {pr : Nat → Out Str} (hpr : ∀ c ∈ ch p, ∃ s, pr c = .ok s) (hp : p ≠ 0) :
    ∃ s, printChildren pr d (d.nn.length + 2) (getFirstChild p d) = .ok s := by
  let out : Nat → Str := fun c => match pr c with
    | .ok s => s
    | _ => []
  have ho : ∀ c ∈ ch p, pr c = .ok (out c) := by
    intro c hc
    obtain ⟨s, hs⟩ := hpr c hc
    simp only [out, hs]
  rw [h.linked.getFirstChild_eq hp]
  exact ⟨_, printChildren_eq h.linked (ch p) [] _ rfl ho (by have := h.linked.length_nn p; omega)⟩

theorem node_prints (h : DomI d ch) : ∀ k f n, d.nodes.length ≤ n + k → d.nodes.length < f + n → n ≠ 0 → IsKid d n →
    ∃ s, printNodeF d f n = .ok s := by
  intro k
  induction k with
  | zero =>
    intro f n hk _ _ hn
    exfalso
    rcases hn with hn | hn <;> obtain ⟨nd, h1, _⟩ := typeOf_some hn <;> have := lt_of_some h1 <;> omega
  | succ k ih =>
    intro f n hk hf h0 hn
    have hlt : n < d.nodes.length := by
      rcases hn with hn | hn <;> obtain ⟨nd, h1, _⟩ := typeOf_some hn <;> exact lt_of_some h1
    obtain ⟨f, rfl⟩ : ∃ g, f = g + 1 := ⟨f - 1, by omega⟩
    rcases hn with hn | hn
    · obtain ⟨s, hs⟩ := h.text hn
      rw [textOf_eq] at hs
      rw [List.getElem?_eq_getElem hlt] at hs
      rw [printNodeF, node_ok hlt, Option.some.inj hs]
      exact ⟨s, rfl⟩
    · obtain ⟨nd, h1, h2⟩ := typeOf_some hn
      obtain ⟨t, e1, e2, e3⟩ := (h.good n nd h1).doc h2
      rw [List.getElem?_eq_getElem hlt] at h1
      rw [printNodeF, node_ok hlt, Option.some.inj h1]
      cases nd
      simp only at h2 e1
      subst h2 e1
      simp only [Out.bind_ok, Node.docTag]
      rw [regAt_ok (List.getElem?_eq_getElem e3)]
      simp only [Out.bind_ok]
      rw [printBools_eq n _ h.names.boolsLt, printProps_eq n _ h.names.propsLt]
      simp only [Out.bind_ok]
      split
      · exact ⟨_, rfl⟩
      · obtain ⟨s, hs⟩ := kids_print h (p := n) (pr := printNodeF d f) (fun c hc => by
          have := h.linked.range n c hc
          exact ih f c (by omega) (by omega) (by omega) (h.kind n c hc)) h0
        rw [hs]
        exact ⟨_, rfl⟩

/-- Every document whose links are in order can be printed. -/
theorem linked_prints (h : DomI d ch) : ∃ t, printHTML d = .ok t := by
  have h2 := h.linked.two
  unfold printHTML
  rw [printChildren, if_pos (by decide), printNodeF]
  obtain ⟨nd, hnd, hty⟩ := typeOf_some h.root
  have hn : d.node rootID = .ok nd := by unfold Dom.node; show (match d.nodes[1]? with | _ => _) = _; rw [hnd]
  rw [hn]
  simp only [Out.bind_ok, hty]
  obtain ⟨s, hs⟩ := kids_print h (p := rootID) (pr := printNodeF d d.nodes.length) (fun c hc => by
    have := h.linked.range _ c hc
    exact node_prints h d.nodes.length _ c (by omega) (by omega) (by omega) (h.kind _ c hc)) (by decide)
  rw [hs, Out.bind_ok]
  show ∃ t, (printChildren _ d (d.nn.length + 1) (getNext 1 d) >>= _) = _
  rw [h.linked.getNext_root]
  exact ⟨_, rfl⟩

/-! ## Link updates that are interrupted -/

theorem pcMore (h : LinkedD d ch) {F : List Nat} (hF : ∀ c ∈ F, 2 ≤ c ∧ c < d.nodes.length) {p : Nat} (hp : p ≠ 0) :
    ∀ a c, (a, c) ∈ d.pc ++ F.map (fun c => (p, c)) → (a = 0 ↔ c = 0) := by
  intro a c hm
  rcases List.mem_append.mp hm with hm | hm
  · exact h.pcNz a c hm
  · simp at hm
    obtain ⟨hm, e⟩ := hm
    have := (hF c hm).1
    exact ⟨fun e' => absurd (e.trans e') hp, fun e => by omega⟩

/-- The first child of `p` is exchanged for the first of the floating nodes, whose last is not linked to the old children. -/
theorem lostFirst (h : DomI d ch) {p f0 : Nat} {F : List Nat} (hF : ch 0 = f0 :: F) (hp : p ≠ 0) (hlt : ∀ c ∈ ch 0, p < c)
    {i c : Nat} (hh : (ch p).head? = some c) (hi : d.fc[i]? = some (p, c)) :
    ∃ z, DomI z (upd (upd ch 0 []) p (f0 :: F)) ∧ (∀ q, SameNode d z q) ∧ SameButParents z { d with fc := d.fc.set i (p, f0) } := by
  obtain ⟨h1, h2⟩ := h.linked.forget
  rw [hF] at h2
  have hlt' : ∀ c ∈ f0 :: F, p < c := by rw [← hF]; exact hlt
  have hchp : upd ch 0 [] p = ch p := upd_ne hp
  have hf0 : f0 ≠ 0 := by have := h2.range f0 (by simp); omega
  have hrow : ((p, c) : Row) ≠ (0, 0) := row_ne_zero hp
  have hno2 : ∀ q, (q, f0) ∉ d.fc := by
    intro q hc
    have hq : q ≠ 0 := fun e => hf0 ((h1.fcG.nz' hc).mp e)
    exact h2.free q f0 (by simp) (List.mem_of_mem_head? ((h1.fcM q f0 hq).mp hc))
  have hL : Linked d.nodes.length (d.fc.set i (p, f0)) (d.pc ++ (f0 :: F).map (fun c => (p, c))) d.nn (upd (upd ch 0 []) p (f0 :: F)) := by
    refine h1.relist h2 (fun c hc => Or.inr hc) h2.nodup hlt' h1.nnG (h1.fcG.set hi hp hf0 ?_ (fun c hc => absurd hc (hno2 c)) hrow)
      h2.adj h2.own (fun a b hr _ => Or.inl hr) (fun a b hr _ _ => hr) ?_ ?_ ?_ (fun x c hr _ _ => List.mem_append_left _ hr) ?_
      (pcMore h.linked h2.range hp)
    · intro c' hc
      rw [h1.fcG.fst_unique hp hc (List.mem_of_getElem? hi)]
    · intro _ c'
      rw [h1.fcG.mem_set hi hrow]
      constructor
      · rintro (⟨g1, g2⟩ | g1)
        · exact absurd (by rw [h1.fcG.fst_unique hp g1 (List.mem_of_getElem? hi)]) g2
        · cases g1; rfl
      · intro hc
        simp at hc; subst hc; exact Or.inr rfl
    · intro q c' hq _
      rw [h1.fcG.mem_set hi hrow]
      constructor
      · rintro (g1 | g1)
        · exact g1.1
        · cases g1; exact absurd rfl hq
      · intro g1; left; exact ⟨g1, by rintro ⟨rfl, rfl⟩; exact hq rfl⟩
    · intro _ c' hc
      apply List.mem_append_right
      simpa using hc
    · intro x c' hm _
      rcases List.mem_append.mp hm with hm | hm
      · exact Or.inl hm
      · simp only [List.mem_map] at hm
        obtain ⟨y, hy, e⟩ := hm
        cases e
        exact Or.inr ⟨rfl, hp, Or.inl hy⟩
  have hk := h.links (d' := { d with fc := d.fc.set i (p, f0), pc := d.pc ++ (f0 :: F).map (fun c => (p, c)) }) ⟨_, _, _, rfl⟩ hL ?_
  · exact ⟨_, hk.1, hk.2.1, rfl⟩
  intro q x hx
  rcases upd_mem hx with hx | hx
  · exact ⟨0, by rw [hF]; exact hx⟩
  · exact ⟨q, hx⟩

theorem replaceLoop_pc {i : Nat} : ∀ (f o : Nat) (x y : Dom), replaceConnectLoop i f o x = .ok y → SameButParents x y
  | 0, _, _, _, e => by cases e
  | f + 1, o, x, y, e => by
    unfold replaceConnectLoop at e
    split at e
    · have := replaceLoop_pc f _ _ y e
      unfold SameButParents at this ⊢
      rw [this]
    · cases e; exact SameButParents.refl x

theorem replaceParent_pc {old new : Nat} {x y : Dom} (e : replaceParent old new x = .ok y) : SameButParents x y := by
  unfold replaceParent at e
  split at e
  · cases e; exact SameButParents.refl x
  · have := replaceLoop_pc _ _ _ y e
    unfold SameButParents at this ⊢
    rw [this]

/-- The previous sibling of `old`, or their parent, leads to the first of the floating nodes, whose last is not linked to what follows `old`. -/
theorem lostRest (h : DomI d ch) {p old f0 : Nat} {F : List Nat} (hF : ch 0 = f0 :: F) (hp : p ≠ 0) {l₁ l₂ : List Nat}
    (he : ch p = l₁ ++ old :: l₂) (hlt : ∀ c ∈ ch 0, p < c) :
    ∃ z, DomI z (upd (upd ch 0 []) p (l₁ ++ f0 :: F)) ∧ (∀ q, SameNode d z q) ∧
      SameButParents z { d with nn := replacePrev old f0 d, fc := replaceFirst old f0 d } := by
  obtain ⟨h1, h2⟩ := h.linked.forget
  rw [hF] at h2
  have hlt' : ∀ c ∈ f0 :: F, p < c := by rw [← hF]; exact hlt
  have hchp : upd ch 0 [] p = ch p := upd_ne hp
  have he' : upd ch 0 [] p = l₁ ++ old :: l₂ := by rw [hchp]; exact he
  have hold : old ∈ ch p := by rw [he]; simp
  have hold0 := h.linked.pos hold
  have hf0 : f0 ≠ 0 := by have := h2.range f0 (by simp); omega
  have hnodup := h.linked.nodup p
  have holdF : old ∉ f0 :: F := fun hx => h2.free p old hx (by rw [hchp]; exact hold)
  obtain ⟨hG1, hm1, _⟩ := replacePrev_spec h1 h2 he'
  obtain ⟨nd, hnd, _⟩ := h.getType hold
  obtain ⟨d', e', ⟨fc', pc', nn', hd'⟩, hL'⟩ := replaceUpdate_spec h.linked hF hp he hlt hnd
  have hfc' : d'.fc = replaceFirst old f0 d := by
    unfold replaceUpdateReferences at e'
    rw [show d.node old = .ok nd by simp [Dom.node, hnd]] at e'
    simp only [Out.bind_ok] at e'
    rw [Out.bind_eq_ok] at e'
    obtain ⟨la, _, e'⟩ := e'
    rw [Out.bind_eq_ok] at e'
    obtain ⟨y, hy, e'⟩ := e'
    cases e'
    have : SameButParents { d with nn := replacePrev old f0 d, fc := replaceFirst old f0 d } y := replaceParent_pc hy
    unfold SameButParents at this
    rw [this]
  have hpos : ∀ c, c ∈ l₁ ++ f0 :: F → c ≠ 0 := by
    intro c hc
    rcases List.mem_append.mp hc with hc | hc
    · have := h.linked.range p c (by rw [he]; simp [hc]); omega
    · have := h2.range c hc; omega
  have hd1 : ∀ c ∈ l₁, c ≠ old := by
    rintro c hc rfl
    rw [he, List.nodup_append] at hnodup
    exact hnodup.2.2 c hc c (by simp) rfl
  have hL : Linked d.nodes.length (replaceFirst old f0 d) (d.pc ++ (f0 :: F).map (fun c => (p, c))) (replacePrev old f0 d)
      (upd (upd ch 0 []) p (l₁ ++ f0 :: F)) := by
    refine h1.relist h2 ?_ ?_ hlt' hG1 ?_ ?_ ?_ ?_ ?_ ?_ ?_ ?_ (fun x c hr _ _ => List.mem_append_left _ hr) ?_
      (pcMore h.linked h2.range hp)
    · intro c hc
      rcases List.mem_append.mp hc with hc | hc
      · left; rw [he']; simp [hc]
      · exact Or.inr hc
    · have := h2.nodup_append h1 p
      rw [he'] at this
      refine List.Nodup.sublist ?_ this
      exact List.Sublist.append (List.sublist_append_left _ _) (List.Sublist.refl _)
    · rw [← hfc']; exact hL'.fcG
    · intro a b hab
      refine (hm1 a b (hpos a (adj_mem_left hab))).mpr ?_
      rw [adj_append] at hab
      rcases hab with hab | hab | ⟨ha, hb⟩
      · exact Or.inl ⟨h.linked.nnAdj p a b (by rw [he, adj_append]; tauto), hd1 b (adj_mem_right hab)⟩
      · exact Or.inl ⟨h2.adj a b hab, fun e => holdF (e ▸ adj_mem_right hab)⟩
      · simp at hb; subst hb; exact Or.inr ⟨ha, rfl⟩
    · intro a b hr ho
      have ha0 : a ≠ 0 := by
        rcases ho with ho | ho
        · exact hpos a ho
        · intro e; exact hpos b ho ((hG1.nz' hr).mp e)
      rw [adj_append]
      rcases (hm1 a b ha0).mp hr with ⟨hr, hb⟩ | ⟨hl, rfl⟩
      · by_cases hF' : a ∈ f0 :: F ∨ b ∈ f0 :: F
        · exact Or.inr (Or.inl (h2.own a b hr hF'))
        · have ho' : a ∈ l₁ ∨ b ∈ l₁ := by
            rw [List.mem_append, List.mem_append] at ho; tauto
          have := h.linked.nnOwn p a b hr (by rw [he]; simp only [List.mem_append]; tauto)
          rw [he, adj_append, adj_cons] at this
          rw [he, List.nodup_append] at hnodup
          rcases this with this | (⟨e, hh⟩ | this) | ⟨_, hh⟩
          · exact Or.inl this
          · exfalso
            rcases ho' with ho' | ho'
            · exact hd1 a ho' e.symm
            · exact hnodup.2.2 b ho' b (List.mem_cons_of_mem _ (List.mem_of_mem_head? hh)) rfl
          · exfalso
            rcases ho' with ho' | ho'
            · exact hnodup.2.2 a ho' a (List.mem_cons_of_mem _ (adj_mem_left this)) rfl
            · exact hnodup.2.2 b ho' b (List.mem_cons_of_mem _ (adj_mem_right this)) rfl
          · simp at hh; exact absurd hh.symm hb
      · exact Or.inr (Or.inr ⟨hl, rfl⟩)
    · intro a b hr ha
      rcases (hm1 a b ha).mp hr with ⟨hr, _⟩ | ⟨hl, rfl⟩
      · exact Or.inl hr
      · have := List.mem_of_mem_getLast? hl
        refine Or.inr ⟨Or.inr (by rw [he']; simp [this]), Or.inl (by simp), by simp [this]⟩
    · intro a b hr ha hor
      refine (hm1 a b ha).mpr (Or.inl ⟨hr, ?_⟩)
      rintro rfl
      have := h.linked.nnOwn p a b hr (Or.inr hold)
      rw [hchp] at hor
      rcases hor with ho | ho
      · exact ho (adj_mem_left this)
      · exact ho hold
    · intro _ c
      have := hL'.fcM p c hp
      rw [hfc', upd_same] at this
      rw [this]
      simp
    · intro q c hq hq0
      have := hL'.fcM q c hq0
      rw [hfc', upd_ne hq] at this
      rw [this, h1.fcM q c hq0]
    · intro _ c hc
      rcases List.mem_append.mp hc with hc | hc
      · exact List.mem_append_left _ (h.linked.pcM p c hp (by rw [he]; simp [hc]))
      · apply List.mem_append_right
        simpa using hc
    · intro x c' hm _
      rcases List.mem_append.mp hm with hm | hm
      · exact Or.inl hm
      · simp only [List.mem_map] at hm
        obtain ⟨y, hy, e⟩ := hm
        cases e
        exact Or.inr ⟨rfl, hp, Or.inl hy⟩
  have hk := h.links (d' := { d with nn := replacePrev old f0 d, fc := replaceFirst old f0 d, pc := d.pc ++ (f0 :: F).map (fun c => (p, c)) })
    ⟨_, _, _, rfl⟩ hL ?_
  · exact ⟨_, hk.1, hk.2.1, rfl⟩
  intro q x hx
  rcases upd_mem hx with hx | hx
  · rcases List.mem_append.mp hx with hx | hx
    · exact ⟨p, by rw [he]; simp [hx]⟩
    · exact ⟨0, by rw [hF]; exact hx⟩
  · exact ⟨q, hx⟩

end
end Flo.Crash
