import Verif.Proofs.Nav
import Verif.Model.Edit
/-!
# The structural edits on linked DOMs
-/
namespace Flo
open Spec

theorem mem_set_of_ne {α : Type} {l : List α} {i : Nat} {r x : α} (hm : x ∈ l) (hne : l[i]? ≠ some x) :
    x ∈ l.set i r := by
  obtain ⟨j, hj, rfl⟩ := List.getElem_of_mem hm
  have hij : i ≠ j := by
    rintro rfl
    exact hne (List.getElem?_eq_getElem hj)
  rw [List.mem_iff_getElem]
  refine ⟨j, by simpa using hj, ?_⟩
  rw [List.getElem_set_ne hij]

theorem Chain.of_good {d : Dom} {F : List Nat} (hg : Good d.nn) (hadj : ChainIn d.nn F)
    (hlast : ∀ a b, F.getLast? = some a → (a, b) ∉ d.nn) (hpos : ∀ a ∈ F, a ≠ 0) (hnd : F.Nodup) : Chain d F where
  adj a b hab := by
    obtain ⟨i, h1, h2⟩ := findFst_of_mem (hadj a b hab)
      (fun _ hc => hg.fst_unique (hpos a (adj_mem_left hab)) hc (hadj a b hab))
    have h1 : getNextNode a d = some i := h1
    exact ⟨by rw [h1]; simp, by simp [getNext, h1, rowAt_eq h2]⟩
  last a ha := findFst_none.mpr (fun b => hlast a b ha)
  pos := hpos
  len := adj_pairs_length hnd hadj

/-- Chains only look at `nextNodes`. -/
theorem Chain.congr {d d' : Dom} {l : List Nat} (h : Chain d l) (he : d'.nn = d.nn) : Chain d' l where
  adj a b hab := by
    have := h.adj a b hab
    simp only [getNext, getNextNode, he] at this ⊢; exact this
  last a ha := by
    have := h.last a ha
    simp only [getNextNode, he] at this ⊢; exact this
  pos := h.pos
  len := by rw [he]; exact h.len

theorem Chain.connectLoop {p : Nat} : ∀ (l : List Nat) (f : Nat) (d : Dom), Chain d l → l.length < f →
    connectLoop p f (l.headD 0) d = .ok { d with pc := d.pc ++ l.map (fun c => (p, c)) } := by
  intro l
  induction l with
  | nil =>
    intro f d _ hf
    obtain ⟨f, rfl⟩ : ∃ f', f = f' + 1 := ⟨f - 1, by omega⟩
    simp [Flo.connectLoop]
  | cons x l ih =>
    intro f d hc hf
    obtain ⟨f, rfl⟩ : ∃ f', f = f' + 1 := ⟨f - 1, by omega⟩
    have hx : x ≠ 0 := hc.pos x (by simp)
    unfold Flo.connectLoop
    rw [List.headD_cons, if_pos (by omega)]
    dsimp only
    have hn : getNext x { d with pc := d.pc ++ [(p, x)] } = l.headD 0 := by
      have := hc.getNext_head
      simpa [getNext, getNextNode] using this
    rw [hn, ih f { d with pc := d.pc ++ [(p, x)] } (hc.tail.congr rfl) (by simp at hf; omega)]
    simp

theorem Chain.connectOthers {p x : Nat} {l : List Nat} {d : Dom} (h : Chain d (x :: l)) :
    connectOthers p x d = .ok { d with pc := d.pc ++ l.map (fun c => (p, c)) } := by
  unfold Flo.connectOthers
  rw [h.getNext_head]
  exact Chain.connectLoop l _ d h.tail (by have := h.len; simp at this; omega)

/-- Which link tables an edit may change. -/
structure LinksOnly (d d' : Dom) : Prop where
  eq : ∃ fc pc nn, d' = { d with fc := fc, pc := pc, nn := nn }

theorem LinksOnly.nodes {d d' : Dom} (h : LinksOnly d d') : d'.nodes = d.nodes := by
  obtain ⟨_, _, _, rfl⟩ := h.eq; rfl

theorem LinksOnly.trans {a b c : Dom} (h : LinksOnly a b) (h' : LinksOnly b c) : LinksOnly a c := by
  obtain ⟨_, _, _, rfl⟩ := h.eq
  obtain ⟨_, _, _, rfl⟩ := h'.eq
  exact ⟨_, _, _, rfl⟩

section
variable {d : Dom} {ch : Nat → List Nat}

/-- Hanging the floating nodes behind the children of `p`. -/
theorem appendUpdate_spec (h : LinkedD d ch) {p f0 : Nat} {F : List Nat} (hF : ch 0 = f0 :: F) (hp : p ≠ 0)
    (hlt : ∀ c ∈ ch 0, p < c) :
    ∃ d', appendUpdateReferences p f0 d = .ok d' ∧ LinksOnly d d' ∧
      LinkedD d' (upd (upd ch 0 []) p (ch p ++ f0 :: F)) := by
  obtain ⟨h1, h2⟩ := h.forget
  rw [hF] at h2
  have hlt' : ∀ c ∈ f0 :: F, p < c := by rw [← hF]; exact hlt
  have hchp : upd ch 0 [] p = ch p := upd_ne hp
  unfold appendUpdateReferences
  have hf0 : f0 ≠ 0 := by have := h2.range f0 (by simp); omega
  cases hc : ch p with
  | nil =>
    rw [h.firstNode_none hp hc]
    dsimp only
    have hchain : Chain { d with fc := d.fc ++ [(p, f0)], pc := d.pc ++ [(p, f0)] } (f0 :: F) :=
      (Loose.chain h.nnG h2).congr rfl
    rw [hchain.connectOthers]
    refine ⟨_, rfl, ⟨_, _, _, rfl⟩, ?_⟩
    show Linked d.nodes.length (d.fc ++ [(p, f0)]) ((d.pc ++ [(p, f0)]) ++ F.map (fun c => (p, c))) d.nn _
    rw [List.nil_append]
    refine h1.appendFirst h2 hp (by rw [hchp, hc]) rfl hlt' ?_
    refine ⟨fun r hr => by simp [hr], fun _ c hc => ?_, ?_⟩
    · rcases List.mem_cons.mp hc with rfl | hc <;> simp [*]
    · intro x c hr
      simp only [List.mem_append, List.mem_map, List.mem_singleton] at hr
      rcases hr with (hr | hr) | ⟨c', hr, e⟩
      · exact Or.inl hr
      · cases hr; right; simp [hp]
      · cases e; right; simp [hp, hr]
  | cons c l =>
    obtain ⟨i, hi1, hi2⟩ := h.firstNode hp (c := c) (by rw [hc]; rfl)
    rw [hi1]
    dsimp only
    rw [rowAt_eq hi2]
    dsimp only
    have hch : Chain d (c :: l) := h.chain p (l₁ := []) (by rw [hc]; rfl)
    rw [hch.getLastNext]
    simp only [Out.bind_ok]
    generalize hlast : (c :: l).getLast (by simp) = last
    have hlast' : (upd ch 0 [] p).getLast? = some last := by
      rw [hchp, hc, List.getLast?_eq_some_getLast (by simp), hlast]
    have hlm : last ∈ ch p := by rw [hc]; exact List.mem_of_mem_getLast? (by rw [← hc, ← hchp]; exact hlast')
    have hpc : ∀ pc', pc' = (d.pc ++ [(p, f0)]) ++ F.map (fun c => (p, c)) →
        PcExt p (f0 :: F) (upd ch 0 [] p) d.pc pc' := by
      rintro pc' rfl
      refine ⟨fun r hr => by simp [hr], fun _ c hc => ?_, ?_⟩
      · rcases List.mem_cons.mp hc with rfl | hc <;> simp [*]
      · intro x c hr
        simp only [List.mem_append, List.mem_map, List.mem_singleton] at hr
        rcases hr with (hr | hr) | ⟨c', hr, e⟩
        · exact Or.inl hr
        · cases hr; right; simp [hp]
        · cases e; right; simp [hp, hr]
    have hL := h1.appendNext h2 hlast' rfl hlt' (hpc _ rfl)
    have hchain : Chain { d with nn := d.nn ++ [(last, f0)], pc := d.pc ++ [(p, f0)] } (f0 :: F) := by
      refine Chain.of_good hL.nnG ?_ ?_ (fun a ha => by have := h2.range a ha; omega) h2.nodup
      · intro a b hab
        show (a, b) ∈ d.nn ++ _
        exact List.mem_append_left _ (h2.adj a b hab)
      · intro a b ha hm
        rcases List.mem_append.mp hm with hm | hm
        · exact h2.no_next_last ha b hm
        · simp at hm
          have haF := List.mem_of_mem_getLast? ha
          exact h2.free p last (by rw [← hm.1]; exact haF) (by rw [hchp]; exact hlm)
    rw [hchain.connectOthers]
    refine ⟨_, rfl, ⟨_, _, _, rfl⟩, ?_⟩
    rw [hchp, hc] at hL
    exact hL

/-- Hanging the floating nodes before the children of `p`. -/
theorem prependUpdate_spec (h : LinkedD d ch) {p f0 : Nat} {F : List Nat} (hF : ch 0 = f0 :: F) (hp : p ≠ 0)
    (hlt : ∀ c ∈ ch 0, p < c) :
    ∃ d', prependUpdateReferences p f0 d = .ok d' ∧ LinksOnly d d' ∧
      LinkedD d' (upd (upd ch 0 []) p (f0 :: F ++ ch p)) := by
  obtain ⟨h1, h2⟩ := h.forget
  rw [hF] at h2
  have hlt' : ∀ c ∈ f0 :: F, p < c := by rw [← hF]; exact hlt
  have hchp : upd ch 0 [] p = ch p := upd_ne hp
  unfold prependUpdateReferences
  have hf0 : f0 ≠ 0 := by have := h2.range f0 (by simp); omega
  cases hc : ch p with
  | nil =>
    rw [h.firstNode_none hp hc]
    dsimp only
    have hchain : Chain { d with fc := d.fc ++ [(p, f0)], pc := d.pc ++ [(p, f0)] } (f0 :: F) :=
      (Loose.chain h.nnG h2).congr rfl
    rw [hchain.connectOthers]
    refine ⟨_, rfl, ⟨_, _, _, rfl⟩, ?_⟩
    show Linked d.nodes.length (d.fc ++ [(p, f0)]) ((d.pc ++ [(p, f0)]) ++ F.map (fun c => (p, c))) d.nn _
    rw [List.append_nil]
    refine h1.appendFirst h2 hp (by rw [hchp, hc]) rfl hlt' ?_
    refine ⟨fun r hr => by simp [hr], fun _ c hc => ?_, ?_⟩
    · rcases List.mem_cons.mp hc with rfl | hc <;> simp [*]
    · intro x c hr
      simp only [List.mem_append, List.mem_map, List.mem_singleton] at hr
      rcases hr with (hr | hr) | ⟨c', hr, e⟩
      · exact Or.inl hr
      · cases hr; right; simp [hp]
      · cases e; right; simp [hp, hr]
  | cons c l =>
    obtain ⟨i, hi1, hi2⟩ := h.firstNode hp (c := c) (by rw [hc]; rfl)
    rw [hi1]
    dsimp only
    rw [rowAt_eq hi2]
    dsimp only
    have hch : Chain { d with fc := d.fc.set i (p, f0) } (f0 :: F) := (Loose.chain h.nnG h2).congr rfl
    rw [hch.getLastNext]
    simp only [Out.bind_ok]
    generalize hlast : (f0 :: F).getLast (by simp) = lastF
    have hlast' : (f0 :: F).getLast? = some lastF := by
      rw [List.getLast?_eq_some_getLast (by simp), hlast]
    have hpc : ∀ pc', pc' = (d.pc ++ [(p, f0)]) ++ (F ++ c :: l).map (fun c => (p, c)) →
        PcExt p (f0 :: F) (upd ch 0 [] p) d.pc pc' := by
      rintro pc' rfl
      rw [hchp, hc]
      refine ⟨fun r hr => by simp [hr], fun _ c hc => ?_, ?_⟩
      · rcases List.mem_cons.mp hc with rfl | hc <;> simp [*]
      · intro x y hr
        simp only [List.mem_append, List.mem_map, List.mem_singleton] at hr
        rcases hr with (hr | hr) | ⟨c', hr, e⟩
        · exact Or.inl hr
        · cases hr; right; simp [hp]
        · cases e; right
          refine ⟨rfl, hp, ?_⟩
          rcases hr with hr | hr
          · simp [hr]
          · exact Or.inr hr
    have hL := h1.prepend h2 hp (first := c) (by rw [hchp, hc]; rfl) rfl hlast' hlt' hi2 (hpc _ rfl)
    have hchain : Chain { d with fc := d.fc.set i (p, f0), nn := d.nn ++ [(lastF, c)], pc := d.pc ++ [(p, f0)] }
        (f0 :: (F ++ c :: l)) := by
      have := hL.nnAdj p
      rw [upd_same, hchp, hc] at this
      refine Chain.of_good hL.nnG this ?_ ?_ ?_
      · intro a b ha
        refine hL.no_next_last (p := p) ?_ b
        rw [upd_same, hchp, hc]; exact ha
      · intro a ha
        have := hL.range p a (by rw [upd_same, hchp, hc]; exact ha)
        omega
      · have := hL.nodup p
        rw [upd_same, hchp, hc] at this
        exact this
    rw [hchain.connectOthers]
    refine ⟨_, rfl, ⟨_, _, _, rfl⟩, ?_⟩
    rw [hchp, hc] at hL
    exact hL

theorem Linked.before {N : Nat} {fc pc nn : List Row} (h : Linked N fc pc nn ch) {p n x : Nat} {l₁ l₂ : List Nat}
    (he : ch p = l₁ ++ n :: l₂) : (x, n) ∈ nn ↔ l₁.getLast? = some x := by
  have hnd := h.nodup p
  rw [he, List.nodup_append, List.nodup_cons] at hnd
  constructor
  · intro hr
    have := h.nnOwn p x n hr (Or.inr (by rw [he]; simp))
    rw [he, adj_append, adj_cons] at this
    rcases this with h1 | (⟨_, h1⟩ | h1) | ⟨h1, _⟩
    · exact absurd rfl (hnd.2.2 n (adj_mem_right h1) n (by simp))
    · exact absurd (List.mem_of_mem_head? h1) hnd.2.1.1
    · exact absurd (adj_mem_right h1) hnd.2.1.1
    · exact h1
  · intro hl
    refine h.nnAdj p x n ?_
    rw [he, adj_append]
    right; right; exact ⟨hl, rfl⟩

theorem Linked.after {N : Nat} {fc pc nn : List Row} (h : Linked N fc pc nn ch) {p n y : Nat} {l₁ l₂ : List Nat}
    (he : ch p = l₁ ++ n :: l₂) : (n, y) ∈ nn ↔ l₂.head? = some y := by
  have hnd := h.nodup p
  rw [he, List.nodup_append, List.nodup_cons] at hnd
  constructor
  · intro hr
    have := h.nnOwn p n y hr (Or.inl (by rw [he]; simp))
    rw [he, adj_append, adj_cons] at this
    rcases this with h1 | (⟨_, h1⟩ | h1) | ⟨h1, _⟩
    · exact absurd rfl (hnd.2.2 n (adj_mem_left h1) n (by simp))
    · exact h1
    · exact absurd (adj_mem_left h1) hnd.2.1.1
    · exact absurd rfl (hnd.2.2 n (List.mem_of_mem_getLast? h1) n (by simp))
  · intro hl
    refine h.nnAdj p n y ?_
    rw [he, adj_append, adj_cons]
    right; left; left; exact ⟨rfl, hl⟩

/-- Where the previous-sibling row is. -/
theorem Linked.prev_cases (h : LinkedD d ch) {p n : Nat} {l₁ l₂ : List Nat} (he : ch p = l₁ ++ n :: l₂) :
    (l₁ = [] ∧ getPreviousNode n d = none) ∨
    (∃ m a v, l₁ = m ++ [a] ∧ getPreviousNode n d = some v ∧ d.nn[v]? = some (a, n)) := by
  rcases List.eq_nil_or_concat' l₁ with rfl | ⟨m, a, rfl⟩
  · left
    exact ⟨rfl, h.prevNode_none (p := p) (by rw [he]; rfl)⟩
  · right
    obtain ⟨v, h1, h2⟩ := h.prevNode (p := p) (a := a) (b := n) (by
      rw [he]; exact adj_iff_split.mpr ⟨m, l₂, by simp⟩)
    exact ⟨m, a, v, rfl, h1, h2⟩

theorem Linked.next_cases (h : LinkedD d ch) {p n : Nat} {l₁ l₂ : List Nat} (he : ch p = l₁ ++ n :: l₂) :
    (l₂ = [] ∧ getNextNode n d = none) ∨
    (∃ b m j, l₂ = b :: m ∧ getNextNode n d = some j ∧ d.nn[j]? = some (n, b)) := by
  cases l₂ with
  | nil => left; exact ⟨rfl, h.nextNode_none (p := p) (by rw [he]; simp)⟩
  | cons b m =>
    right
    obtain ⟨v, h1, h2⟩ := h.nextNode (p := p) (a := n) (b := b) (by
      rw [he]; exact adj_iff_split.mpr ⟨l₁, m, rfl⟩)
    exact ⟨b, m, v, rfl, h1, h2⟩

/-- The `nextNodes` table after taking `n` out. -/
theorem unlink_nn (h : LinkedD d ch) {p n : Nat} {l₁ l₂ : List Nat} (he : ch p = l₁ ++ n :: l₂) :
    Good (unlinkNext n d) ∧ (∀ a b, a ≠ 0 → ((a, b) ∈ unlinkNext n d ↔ ((a, b) ∈ d.nn ∧ a ≠ n ∧ b ≠ n) ∨ Adj (l₁ ++ l₂) a b)) ∧
    (∀ b m, l₂ = b :: m → ∃ j, getNextNode n d = some j ∧ (rowAt (unlinkPrev n d) j).2 = b) := by
  have hn : n ∈ ch p := by rw [he]; simp
  have hn0 := h.pos hn
  have hnd := h.nodup p
  have hnd' := hnd
  rw [he, List.nodup_append, List.nodup_cons] at hnd
  have hbef := fun x => h.before (x := x) he
  have haft := fun y => h.after (y := y) he
  have hadj1 : ∀ a b, Adj l₁ a b → (a, b) ∈ d.nn ∧ a ≠ n ∧ b ≠ n := by
    intro a b hab
    refine ⟨h.nnAdj p a b (by rw [he, adj_append]; tauto), ?_, ?_⟩
    · exact hnd.2.2 a (adj_mem_left hab) n (by simp)
    · exact hnd.2.2 b (adj_mem_right hab) n (by simp)
  have hadj2 : ∀ a b, Adj l₂ a b → (a, b) ∈ d.nn ∧ a ≠ n ∧ b ≠ n := by
    intro a b hab
    refine ⟨h.nnAdj p a b (by rw [he, adj_append, adj_cons]; tauto), ?_, ?_⟩
    · rintro rfl; exact hnd.2.1.1 (adj_mem_left hab)
    · rintro rfl; exact hnd.2.1.1 (adj_mem_right hab)
  unfold unlinkNext unlinkPrev
  rcases h.prev_cases he with ⟨rfl, hp⟩ | ⟨m, x, v, rfl, hp, hv⟩ <;>
  rcases h.next_cases he with ⟨rfl, hx⟩ | ⟨y, m', j, rfl, hx, hj⟩ <;> rw [hp, hx] <;> dsimp only
  · refine ⟨h.nnG, ?_, by simp⟩
    intro a b ha
    constructor
    · intro hr
      left
      refine ⟨hr, ?_, ?_⟩
      · rintro rfl; have := (haft b).mp hr; simp at this
      · rintro rfl; have := (hbef a).mp hr; simp at this
    · rintro (⟨hr, _⟩ | hab)
      · exact hr
      · simp at hab
  · refine ⟨h.nnG.zero j, ?_, ?_⟩
    · intro a b ha
      rw [h.nnG.mem_set hj (row_ne_zero hn0)]
      constructor
      · rintro (⟨hr, hne⟩ | e)
        · left
          refine ⟨hr, ?_, ?_⟩
          · rintro rfl
            have := (haft b).mp hr
            simp at this; subst this; exact hne rfl
          · rintro rfl; have := (hbef a).mp hr; simp at this
        · cases e; exact absurd rfl ha
      · rintro (⟨hr, h1, h2⟩ | hab)
        · left; refine ⟨hr, ?_⟩
          rintro ⟨⟩; exact h1 rfl
        · rw [List.nil_append] at hab
          obtain ⟨hr, h1, h2⟩ := hadj2 a b hab
          left; refine ⟨hr, ?_⟩
          rintro ⟨⟩; exact h1 rfl
    · rintro b m'' ⟨⟩
      exact ⟨j, rfl, by rw [rowAt_eq hj]⟩
  · have hx0 : x ≠ 0 := fun e => hn0 ((h.nnG.nz' (List.mem_of_getElem? hv)).mp e)
    refine ⟨h.nnG.zero v, ?_, by simp⟩
    intro a b ha
    rw [h.nnG.mem_set hv (row_ne_zero hx0)]
    constructor
    · rintro (⟨hr, hne⟩ | e)
      · left
        refine ⟨hr, ?_, ?_⟩
        · rintro rfl; have := (haft b).mp hr; simp at this
        · rintro rfl; have := (hbef a).mp hr; simp at this; subst this; exact hne rfl
      · cases e; exact absurd rfl ha
    · rintro (⟨hr, h1, h2⟩ | hab)
      · left; refine ⟨hr, ?_⟩
        rintro ⟨⟩; exact h2 rfl
      · rw [List.append_nil] at hab
        obtain ⟨hr, h1, h2⟩ := hadj1 a b hab
        left; refine ⟨hr, ?_⟩
        rintro ⟨⟩; exact h2 rfl
  · have hx0 : x ≠ 0 := fun e => hn0 ((h.nnG.nz' (List.mem_of_getElem? hv)).mp e)
    have hy0 : y ≠ 0 := fun e => hn0 ((h.nnG.nz' (List.mem_of_getElem? hj)).mpr e)
    have hxn : x ≠ n := by
      rintro rfl; exact hnd.2.2 x (by simp) x (by simp) rfl
    have hvj : v ≠ j := by
      rintro rfl
      rw [hv] at hj; cases hj; exact hxn rfl
    rw [rowAt_eq hv, rowAt_eq hj]
    dsimp only
    have hcomm : (d.nn.set v (x, y)).set j (0, 0) = (d.nn.set j (0, 0)).set v (x, y) := List.set_comm _ _ hvj
    have hG0 := h.nnG.zero j
    have hv' : (d.nn.set j (0, 0))[v]? = some (x, n) := by
      rw [List.getElem?_set_ne (fun e => hvj e.symm)]; exact hv
    have hmem0 := fun r => h.nnG.mem_set hj (r := (0, 0)) (row_ne_zero hn0) r
    have hG : Good ((d.nn.set j (0, 0)).set v (x, y)) := by
      refine hG0.set hv' hx0 hy0 ?_ ?_ (row_ne_zero hx0)
      · intro c hc
        rcases (hmem0 _).mp hc with ⟨hc, _⟩ | e
        · rw [h.nnG.fst_unique hx0 hc (List.mem_of_getElem? hv)]
        · cases e; exact absurd rfl hx0
      · intro c hc
        rcases (hmem0 _).mp hc with ⟨hc, hne⟩ | e
        · exact absurd (by rw [h.nnG.snd_unique hy0 hc (List.mem_of_getElem? hj)]) hne
        · cases e; exact absurd rfl hy0
    rw [hcomm]
    refine ⟨hG, ?_, ?_⟩
    · intro a b ha
      rw [hG0.mem_set hv' (row_ne_zero hx0), hmem0]
      constructor
      · rintro (⟨⟨hr, hne⟩ | e, hne2⟩ | e)
        · left
          refine ⟨hr, ?_, ?_⟩
          · rintro rfl
            have := (haft b).mp hr
            simp at this; subst this; exact hne rfl
          · rintro rfl; have := (hbef a).mp hr; simp at this; subst this; exact hne2 rfl
        · cases e; exact absurd rfl ha
        · cases e
          right
          exact adj_iff_split.mpr ⟨m, m', by simp⟩
      · have hin : ∀ a b, (a, b) ∈ d.nn ∧ a ≠ n ∧ b ≠ n →
            (((a, b) ∈ d.nn ∧ (a, b) ≠ (n, y)) ∨ (a, b) = (0, 0)) ∧ (a, b) ≠ (x, n) := by
          rintro a b ⟨hr, h1, h2⟩
          refine ⟨Or.inl ⟨hr, ?_⟩, ?_⟩
          · rintro ⟨⟩; exact h1 rfl
          · rintro ⟨⟩; exact h2 rfl
        rintro (hh | hab)
        · exact Or.inl (hin a b hh)
        · rw [adj_append] at hab
          rcases hab with hab | hab | ⟨h1, h2⟩
          · exact Or.inl (hin a b (hadj1 a b hab))
          · exact Or.inl (hin a b (hadj2 a b hab))
          · right
            simp at h1 h2
            rw [h1, h2]
    · rintro b m'' ⟨⟩
      refine ⟨j, rfl, ?_⟩
      rw [rowAt_eq (r := (n, y)) (by rw [List.getElem?_set_ne hvj]; exact hj)]

/-- Taking a childless (or not) node out of the list it is in. -/
theorem unlink_spec (h : LinkedD d ch) {p n : Nat} {l₁ l₂ : List Nat} (he : ch p = l₁ ++ n :: l₂) :
    ∃ d', unlinkNode n d = .ok d' ∧
      (∃ fc pc nn, d' = { d with fc := fc, pc := pc, nn := nn, nodes := d.nodes.set n ⟨.removed, .tag 0⟩ }) ∧
      LinkedD d' (upd ch p (l₁ ++ l₂)) := by
  have hn : n ∈ ch p := by rw [he]; simp
  have hr := h.range p n hn
  obtain ⟨hG, hnn, hrow⟩ := unlink_nn h he
  unfold unlinkNode
  rw [if_neg (by omega)]
  unfold unlinkParent
  have hLoose : Loose d.nodes.length d.pc d.nn ch [] :=
    ⟨by simp, by simp, by simp, by simp, by simp, by simp⟩
  by_cases hp : p = 0
  · subst hp
    rw [h.parentNode_none hn]
    simp only [Out.bind_ok]
    refine ⟨_, rfl, ⟨_, _, _, rfl⟩, ?_⟩
    show Linked (d.nodes.set n _).length d.fc d.pc _ _
    rw [List.length_set]
    exact h.splice hLoose he (by simp) hG h.fcG (by simpa using hnn) (fun e => absurd rfl e)
      (fun _ _ _ _ => Iff.rfl) (fun e => absurd rfl e) (fun x c hc _ _ => hc) (fun x c hc _ => Or.inl hc) h.pcNz
  · obtain ⟨i, hi1, hi2⟩ := h.parentNode hp hn
    rw [hi1]
    dsimp only
    rw [rowAt_eq hi2]
    dsimp only
    have hpcKeep : ∀ x c, (x, c) ∈ d.pc → c ≠ 0 → c ≠ n → (x, c) ∈ d.pc.set i (0, 0) := by
      intro x c hm _ hcn
      refine mem_set_of_ne hm ?_
      rw [hi2]; rintro ⟨⟩; exact hcn rfl
    have hpcOnly : ∀ x c, (x, c) ∈ d.pc.set i (0, 0) → c ≠ 0 → (x, c) ∈ d.pc ∨ (x = p ∧ p ≠ 0 ∧ (c ∈ [] ∨ c ∈ ch p)) := by
      intro x c hm hc
      rcases List.mem_or_eq_of_mem_set hm with hm | e
      · exact Or.inl hm
      · cases e; exact absurd rfl hc
    have hpcNz : ∀ a c, (a, c) ∈ d.pc.set i (0, 0) → (a = 0 ↔ c = 0) := by
      intro a c hm
      rcases List.mem_or_eq_of_mem_set hm with hm | e
      · exact h.pcNz a c hm
      · cases e; exact Iff.rfl
    -- the first child of p
    obtain ⟨c0, hc0⟩ : ∃ c0, (ch p).head? = some c0 := by
      rw [he]; cases l₁ <;> simp
    obtain ⟨k, hk1, hk2⟩ := h.firstNode hp hc0
    rw [hk1]
    dsimp only
    rw [rowAt_eq hk2]
    dsimp only
    have hc0z : c0 ≠ 0 := h.pos (List.mem_of_mem_head? hc0)
    have fin : ∀ fc', Good fc' → (∀ c, (p, c) ∈ fc' ↔ (l₁ ++ l₂).head? = some c) →
        (∀ q c, q ≠ p → q ≠ 0 → ((q, c) ∈ fc' ↔ (q, c) ∈ d.fc)) →
        ∃ d', (Out.ok (fc', d.pc.set i (0, 0)) >>= fun x => (Out.ok { d with
              fc := x.1, pc := x.2, nn := unlinkNext n d
              nodes := d.nodes.set n ⟨.removed, .tag 0⟩ } : Out Dom)) = .ok d' ∧
          (∃ fc pc nn, d' = { d with fc := fc, pc := pc, nn := nn, nodes := d.nodes.set n ⟨.removed, .tag 0⟩ }) ∧
          LinkedD d' (upd ch p (l₁ ++ l₂)) := by
      intro fc' hfG hf1 hf2
      simp only [Out.bind_ok]
      refine ⟨_, rfl, ⟨_, _, _, rfl⟩, ?_⟩
      show Linked (d.nodes.set n _).length fc' (d.pc.set i (0, 0)) _ _
      rw [List.length_set]
      exact h.splice hLoose he (by simp) hG hfG (by simpa using hnn) (fun _ => by simpa using hf1) hf2
        (fun _ c hc => by simp at hc) hpcKeep hpcOnly hpcNz
    have hmem := fun r x => h.fcG.mem_set hk2 (r := r) (row_ne_zero hp) x
    by_cases hcn : c0 = n
    · rw [if_pos hcn]
      have hl1 : l₁ = [] := by
        cases l₁ with
        | nil => rfl
        | cons a l =>
          rw [he] at hc0
          simp at hc0
          have := h.nodup p
          rw [he] at this
          simp at this
          exact absurd (hc0.trans hcn) this.1.2.1
      subst hl1
      rcases h.next_cases he with ⟨rfl, hx⟩ | ⟨y, m', j, rfl, hx, hj⟩
      · rw [hx]
        dsimp only
        refine fin _ (h.fcG.zero k) ?_ ?_
        · intro c
          rw [hmem]
          constructor
          · rintro (⟨hm, hne⟩ | e)
            · exact absurd (by rw [h.fcG.fst_unique hp hm (List.mem_of_getElem? hk2)]) hne
            · cases e; exact absurd rfl hp
          · intro hh; simp at hh
        · intro q c hq hq0
          rw [hmem]
          constructor
          · rintro (⟨hm, hne⟩ | e)
            · exact hm
            · cases e; exact absurd rfl hq0
          · intro hm
            exact Or.inl ⟨hm, by rintro ⟨⟩; exact hq rfl⟩
      · obtain ⟨j', hj1, hj2⟩ := hrow y m' rfl
        have hy0 : y ≠ 0 := h.pos (p := p) (by rw [he]; simp)
        rw [hj1]
        dsimp only
        rw [hj2]
        refine fin _ ?_ ?_ ?_
        · refine h.fcG.set hk2 hp hy0 ?_ ?_ (row_ne_zero hp)
          · intro c hc
            rw [h.fcG.fst_unique hp hc (List.mem_of_getElem? hk2)]
          · intro c hc
            -- y is in the list of p but not first
            exfalso
            have hc' : c ≠ 0 := fun e => hy0 ((h.fcG.nz' hc).mp e)
            have := (h.fcM c y hc').mp hc
            have hcp := h.uniq c p y (List.mem_of_mem_head? this) (by rw [he]; simp)
            subst hcp
            rw [he] at this
            simp at this
            have hnd := h.nodup c
            rw [he] at hnd
            simp [this] at hnd
        · intro c
          rw [hmem]
          constructor
          · rintro (⟨hm, hne⟩ | e)
            · exact absurd (by rw [h.fcG.fst_unique hp hm (List.mem_of_getElem? hk2)]) hne
            · cases e; rfl
          · intro hh; simp at hh; subst hh; exact Or.inr rfl
        · intro q c hq hq0
          rw [hmem]
          constructor
          · rintro (⟨hm, hne⟩ | e)
            · exact hm
            · cases e; exact absurd rfl hq
          · intro hm
            exact Or.inl ⟨hm, by rintro ⟨⟩; exact hq rfl⟩
    · rw [if_neg hcn]
      refine fin _ h.fcG ?_ (fun _ _ _ _ => Iff.rfl)
      intro c
      rw [h.fcM p c hp, he]
      cases l₁ with
      | nil => rw [he] at hc0; simp at hc0; exact absurd hc0.symm hcn
      | cons a l => simp

end
end Flo
