import Verif.Proofs.Remove
/-!
# The link updates of the replacing functions
-/
namespace Flo
open Spec

theorem Chain.replaceConnectLoop {p i : Nat} : ∀ (l : List Nat) (f : Nat) (d : Dom), Chain d l → l.length < f →
    (∃ c, d.pc[i]? = some (p, c)) →
    replaceConnectLoop i f (l.headD 0) d = .ok { d with pc := d.pc ++ l.map (fun c => (p, c)) } := by
  intro l
  induction l with
  | nil =>
    intro f d _ hf _
    obtain ⟨f, rfl⟩ : ∃ f', f = f' + 1 := ⟨f - 1, by omega⟩
    simp [Flo.replaceConnectLoop]
  | cons x l ih =>
    intro f d hc hf hi
    obtain ⟨f, rfl⟩ : ∃ f', f = f' + 1 := ⟨f - 1, by omega⟩
    have hx : x ≠ 0 := hc.pos x (by simp)
    obtain ⟨c, hi⟩ := hi
    unfold Flo.replaceConnectLoop
    rw [List.headD_cons, if_pos (by omega), rowAt_eq hi]
    dsimp only
    have hn : getNext x { d with pc := d.pc ++ [(p, x)] } = l.headD 0 := by
      have := hc.getNext_head
      simpa [getNext, getNextNode] using this
    rw [hn, ih f { d with pc := d.pc ++ [(p, x)] } (hc.tail.congr rfl) (by simp at hf; omega)
      ⟨c, by rw [List.getElem?_append_left (lt_of_getElem? hi)]; exact hi⟩]
    simp
where
  lt_of_getElem? {l : List Row} {i : Nat} {r : Row} (h : l[i]? = some r) : i < l.length :=
    (List.getElem?_eq_some_iff.mp h).1

section
variable {d : Dom} {ch : Nat → List Nat}

/-- The `nextNodes` table once the previous sibling points to the new nodes. -/
theorem replacePrev_spec (h : LinkedD d ch) {p old f0 : Nat} {F : List Nat} (hF : Loose d.nodes.length d.pc d.nn ch (f0 :: F))
    {l₁ l₂ : List Nat} (he : ch p = l₁ ++ old :: l₂) :
    Good (replacePrev old f0 d) ∧
    (∀ a b, a ≠ 0 → ((a, b) ∈ replacePrev old f0 d ↔
      ((a, b) ∈ d.nn ∧ b ≠ old) ∨ (l₁.getLast? = some a ∧ b = f0))) ∧
    (∀ (j b : Nat), d.nn[j]? = some (old, b) → (replacePrev old f0 d)[j]? = some (old, b)) := by
  have hold : old ∈ ch p := by rw [he]; simp
  have hf0 : f0 ≠ 0 := by have := hF.range f0 (by simp); omega
  have hold0 := h.pos hold
  unfold replacePrev
  rcases h.prev_cases he with ⟨rfl, hp⟩ | ⟨m, x, v, rfl, hp, hv⟩ <;> rw [hp] <;> dsimp only
  · refine ⟨h.nnG, ?_, fun _ _ e => e⟩
    intro a b ha
    simp
    intro hr e
    subst e
    have := (h.before he).mp hr
    simp at this
  · rw [rowAt_eq hv]
    dsimp only
    have hx0 : x ≠ 0 := fun e => hold0 ((h.nnG.nz' (List.mem_of_getElem? hv)).mp e)
    refine ⟨?_, ?_, ?_⟩
    · refine h.nnG.set hv hx0 hf0 ?_ ?_ (row_ne_zero hx0)
      · intro c hc
        rw [h.nnG.fst_unique hx0 hc (List.mem_of_getElem? hv)]
      · intro c hc
        exact absurd hc (hF.no_prev_head (by rfl) c)
    · intro a b ha
      rw [h.nnG.mem_set hv (row_ne_zero hx0)]
      constructor
      · rintro (⟨hr, hne⟩ | e)
        · left
          refine ⟨hr, ?_⟩
          rintro rfl
          have := (h.before he).mp hr
          simp at this; subst this; exact hne rfl
        · cases e; right; simp
      · rintro (⟨hr, h1⟩ | ⟨h1, rfl⟩)
        · left; refine ⟨hr, ?_⟩
          rintro ⟨⟩; exact h1 rfl
        · simp at h1; subst h1; exact Or.inr rfl
    · intro j b hj
      rw [List.getElem?_set_ne, hj]
      rintro rfl
      rw [hv] at hj; cases hj
      have := h.nodup p
      rw [he] at this
      simp [List.nodup_append] at this

/-- Putting the floating nodes in the place of `old`. -/
theorem replaceUpdate_spec (h : LinkedD d ch) {p old f0 : Nat} {F : List Nat} (hF : ch 0 = f0 :: F) (hp : p ≠ 0)
    {l₁ l₂ : List Nat} (he : ch p = l₁ ++ old :: l₂) (hlt : ∀ c ∈ ch 0, p < c) {nd : Node}
    (hnd : d.nodes[old]? = some nd) :
    ∃ d', replaceUpdateReferences old f0 d = .ok d' ∧
      (∃ fc pc nn, d' = { d with fc := fc, pc := pc, nn := nn,
                                  nodes := d.nodes.set old { nd with type := .removed } }) ∧
      LinkedD d' (upd (upd ch 0 []) p (l₁ ++ (f0 :: F ++ l₂))) := by
  obtain ⟨h1, h2⟩ := h.forget
  rw [hF] at h2
  have hlt' : ∀ c ∈ f0 :: F, p < c := by rw [← hF]; exact hlt
  have hchp : upd ch 0 [] p = ch p := upd_ne hp
  have he' : upd ch 0 [] p = l₁ ++ old :: l₂ := by rw [hchp]; exact he
  have hold : old ∈ ch p := by rw [he]; simp
  have hold0 := h.pos hold
  have hf0 : f0 ≠ 0 := by have := h2.range f0 (by simp); omega
  have hnodup := h.nodup p
  have holdF : old ∉ f0 :: F := fun hx => h2.free p old hx (by rw [hchp]; exact hold)
  have hchF : Chain d (f0 :: F) := Loose.chain h.nnG h2
  unfold replaceUpdateReferences
  rw [show d.node old = .ok nd by simp [Dom.node, hnd]]
  simp only [Out.bind_ok]
  rw [hchF.getLastNext]
  simp only [Out.bind_ok]
  generalize hlast : (f0 :: F).getLast (by simp) = lastF
  have hlast' : (f0 :: F).getLast? = some lastF := by
    rw [List.getLast?_eq_some_getLast (by simp), hlast]
  have hlastm : lastF ∈ f0 :: F := List.mem_of_mem_getLast? hlast'
  have hlast0 : lastF ≠ 0 := by have := h2.range lastF hlastm; omega
  obtain ⟨hG1, hm1, hj1⟩ := replacePrev_spec h1 h2 he'
  generalize hnn1 : replacePrev old f0 d = nn1 at *
  -- the parent rows
  obtain ⟨i, hi1, hi2⟩ := h.parentNode hp hold
  have hd1chain : Chain { d with nn := nn1, fc := replaceFirst old f0 d, pc := d.pc.set i (p, f0) } (f0 :: F) := by
    refine Chain.of_good hG1 ?_ ?_ (fun a ha => by have := h2.range a ha; omega) h2.nodup
    · intro a b hab
      have ha := h2.range a (adj_mem_left hab)
      refine (hm1 a b (by omega)).mpr (Or.inl ⟨h2.adj a b hab, ?_⟩)
      rintro rfl
      exact holdF (adj_mem_right hab)
    · intro a b ha hm
      have haF := List.mem_of_mem_getLast? ha
      have har := h2.range a haF
      rcases (hm1 a b (by omega)).mp hm with ⟨hr, _⟩ | ⟨hl, _⟩
      · exact h2.no_next_last ha b hr
      · refine h2.free p a haF ?_
        rw [he']; simp [List.mem_of_mem_getLast? hl]
  have hpar : replaceParent old f0 { d with nn := nn1, fc := replaceFirst old f0 d } =
      .ok { d with nn := nn1, fc := replaceFirst old f0 d, pc := d.pc.set i (p, f0) ++ F.map (fun c => (p, c)) } := by
    unfold replaceParent
    have e1 : getParentNode old { d with nn := nn1, fc := replaceFirst old f0 d } = some i := hi1
    rw [e1]
    dsimp only
    rw [rowAt_eq hi2]
    dsimp only
    rw [hd1chain.getNext_head]
    exact Chain.replaceConnectLoop F _ _ hd1chain.tail (by have := hd1chain.len; simp at this; simp; omega)
      ⟨f0, by
        have : i < d.pc.length := (List.getElem?_eq_some_iff.mp hi2).1
        simp [this]⟩
  rw [hpar]
  simp only [Out.bind_ok]
  refine ⟨_, rfl, ⟨_, _, _, rfl⟩, ?_⟩
  show Linked (d.nodes.set old _).length (replaceFirst old f0 d) (d.pc.set i (p, f0) ++ F.map (fun c => (p, c)))
    (replaceNext (getNextNode old d) lastF nn1) _
  rw [List.length_set]
  -- the nextNodes table
  have hn2 : Good (replaceNext (getNextNode old d) lastF nn1) ∧
      ∀ a b, a ≠ 0 → ((a, b) ∈ replaceNext (getNextNode old d) lastF nn1 ↔
        ((a, b) ∈ nn1 ∧ a ≠ old) ∨ (a = lastF ∧ l₂.head? = some b)) := by
    unfold replaceNext
    rcases h.next_cases he with ⟨rfl, hx⟩ | ⟨y, m', j, rfl, hx, hj⟩ <;> rw [hx] <;> dsimp only
    · refine ⟨hG1, ?_⟩
      intro a b ha
      simp
      intro hr
      rintro rfl
      rcases (hm1 a b ha).mp hr with ⟨hr, _⟩ | ⟨hl, _⟩
      · have := (h.after he).mp hr
        simp at this
      · have := List.mem_of_mem_getLast? hl
        rw [he, List.nodup_append] at hnodup
        exact hnodup.2.2 a this a (by simp) rfl
    · have hj' := hj1 j y hj
      rw [rowAt_eq hj']
      dsimp only
      have hy0 : y ≠ 0 := h.pos (p := p) (by rw [he]; simp)
      refine ⟨?_, ?_⟩
      · refine hG1.set hj' hlast0 hy0 ?_ ?_ (row_ne_zero hold0)
        · intro c hc
          exfalso
          rcases (hm1 lastF c hlast0).mp hc with ⟨hr, _⟩ | ⟨hl, _⟩
          · exact h2.no_next_last hlast' c hr
          · refine h2.free p lastF hlastm ?_
            rw [he']; simp [List.mem_of_mem_getLast? hl]
        · intro c hc
          rw [hG1.snd_unique hy0 hc (List.mem_of_getElem? hj')]
      · intro a b ha
        rw [hG1.mem_set hj' (row_ne_zero hold0)]
        constructor
        · rintro (⟨hr, hne⟩ | e)
          · left
            refine ⟨hr, ?_⟩
            rintro rfl
            have := hG1.fst_unique hold0 hr (List.mem_of_getElem? hj')
            subst this; exact hne rfl
          · cases e; right; simp
        · rintro (⟨hr, h1⟩ | ⟨rfl, h2⟩)
          · left; refine ⟨hr, ?_⟩
            rintro ⟨⟩; exact h1 rfl
          · simp at h2; subst h2; exact Or.inr rfl
  have hl1 : ∀ a b, Adj l₁ a b → (a, b) ∈ d.nn ∧ a ≠ old ∧ b ≠ old := by
    intro a b hab
    rw [he, List.nodup_append, List.nodup_cons] at hnodup
    refine ⟨h.nnAdj p a b (by rw [he, adj_append]; tauto), ?_, ?_⟩
    · exact hnodup.2.2 a (adj_mem_left hab) old (by simp)
    · exact hnodup.2.2 b (adj_mem_right hab) old (by simp)
  have hl2 : ∀ a b, Adj l₂ a b → (a, b) ∈ d.nn ∧ a ≠ old ∧ b ≠ old := by
    intro a b hab
    rw [he, List.nodup_append, List.nodup_cons] at hnodup
    refine ⟨h.nnAdj p a b (by rw [he, adj_append, adj_cons]; tauto), ?_, ?_⟩
    · rintro rfl; exact hnodup.2.1.1 (adj_mem_left hab)
    · rintro rfl; exact hnodup.2.1.1 (adj_mem_right hab)
  have hlF : ∀ a b, Adj (f0 :: F) a b → (a, b) ∈ d.nn ∧ a ≠ old ∧ b ≠ old := by
    intro a b hab
    refine ⟨h2.adj a b hab, ?_, ?_⟩
    · rintro rfl; exact holdF (adj_mem_left hab)
    · rintro rfl; exact holdF (adj_mem_right hab)
  have hl1old : ∀ a, l₁.getLast? = some a → a ≠ old := by
    rintro a ha rfl
    rw [he, List.nodup_append] at hnodup
    exact hnodup.2.2 a (List.mem_of_mem_getLast? ha) a (by simp) rfl
  -- the first-child table
  have hfc : Good (replaceFirst old f0 d) ∧
      (∀ c, (p, c) ∈ replaceFirst old f0 d ↔ (l₁ ++ (f0 :: F ++ l₂)).head? = some c) ∧
      (∀ q c, q ≠ p → q ≠ 0 → ((q, c) ∈ replaceFirst old f0 d ↔ (q, c) ∈ d.fc)) := by
    unfold replaceFirst
    rcases h.prev_cases he with ⟨rfl, hpv⟩ | ⟨m, x, v, rfl, hpv, hv⟩ <;> rw [hpv] <;> dsimp only
    · rw [hi1]
      dsimp only
      rw [rowAt_eq hi2]
      dsimp only
      obtain ⟨k, hk1, hk2⟩ := h.firstNode hp (c := old) (by rw [he]; rfl)
      rw [hk1]
      dsimp only
      rw [rowAt_eq hk2]
      dsimp only
      have hmem := fun r x => h.fcG.mem_set hk2 (r := r) (row_ne_zero hp) x
      refine ⟨?_, ?_, ?_⟩
      · refine h.fcG.set hk2 hp hf0 ?_ ?_ (row_ne_zero hp)
        · intro c hc
          rw [h.fcG.fst_unique hp hc (List.mem_of_getElem? hk2)]
        · intro c hc
          exfalso
          have hc' : c ≠ 0 := fun e => hf0 ((h.fcG.nz' hc).mp e)
          have := List.mem_of_mem_head? ((h.fcM c f0 hc').mp hc)
          exact h2.free c f0 (by simp) (by rw [upd_ne hc']; exact this)
      · intro c
        rw [hmem]
        constructor
        · rintro (⟨hm, hne⟩ | e)
          · exact absurd (by rw [h.fcG.fst_unique hp hm (List.mem_of_getElem? hk2)]) hne
          · cases e; rfl
        · intro hh; simp at hh; subst hh; exact Or.inr rfl
      · intro q c hq hq0
        rw [hmem]
        constructor
        · rintro (⟨hm, hne⟩ | e)
          · exact hm
          · cases e; exact absurd rfl hq
        · intro hm
          exact Or.inl ⟨hm, by rintro ⟨⟩; exact hq rfl⟩
    · refine ⟨h.fcG, ?_, fun _ _ _ _ => Iff.rfl⟩
      intro c
      rw [h.fcM p c hp, he]
      cases m <;> simp
  refine h1.splice (F := f0 :: F) h2 he' hlt' hn2.1 hfc.1 ?_ (fun _ => hfc.2.1) hfc.2.2 ?_ ?_ ?_ ?_
  · intro a b ha
    rw [hn2.2 a b ha, hm1 a b ha, adj_append, adj_append]
    constructor
    · rintro (⟨⟨hr, hb⟩ | ⟨hl, rfl⟩, hao⟩ | ⟨rfl, hl⟩)
      · exact Or.inl ⟨hr, hao, hb⟩
      · right; right; right; exact ⟨hl, by simp⟩
      · right; right; left; right; right; exact ⟨hlast', hl⟩
    · rintro (⟨hr, ha', hb⟩ | hab | (hab | hab | ⟨hl, hh⟩) | ⟨hl, hh⟩)
      · exact Or.inl ⟨Or.inl ⟨hr, hb⟩, ha'⟩
      · have := hl1 a b hab; tauto
      · have := hlF a b hab; tauto
      · have := hl2 a b hab; tauto
      · rw [hlast'] at hl; cases hl; exact Or.inr ⟨rfl, hh⟩
      · simp at hh; subst hh
        exact Or.inl ⟨Or.inr ⟨hl, rfl⟩, hl1old a hl⟩
  · intro _ c hc
    rcases List.mem_cons.mp hc with rfl | hc
    · apply List.mem_append_left
      have : i < d.pc.length := (List.getElem?_eq_some_iff.mp hi2).1
      exact List.mem_iff_getElem?.mpr ⟨i, by simp [this]⟩
    · apply List.mem_append_right
      simp [hc]
  · intro x c hm _ hco
    apply List.mem_append_left
    refine mem_set_of_ne hm ?_
    rw [hi2]; rintro ⟨⟩; exact hco rfl
  · intro x c hm hc
    rcases List.mem_append.mp hm with hm | hm
    · rcases List.mem_or_eq_of_mem_set hm with hm | e
      · exact Or.inl hm
      · cases e; right; simp [hp]
    · simp at hm
      obtain ⟨hm, e⟩ := hm
      right; exact ⟨e.symm, hp, Or.inl (by simp [hm])⟩
  · intro a c hm
    rcases List.mem_append.mp hm with hm | hm
    · rcases List.mem_or_eq_of_mem_set hm with hm | e
      · exact h.pcNz a c hm
      · cases e
        exact ⟨fun e => absurd e hp, fun e => by omega⟩
    · simp at hm
      obtain ⟨e, rfl⟩ := hm
      have := (h2.range c (by simp [e])).1
      exact ⟨fun e => absurd e hp, fun e => by omega⟩

end
end Flo
