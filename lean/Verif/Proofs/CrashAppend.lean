import Verif.Proofs.CrashSim
/-!
# Failing calls that link one new node (C125)
-/
namespace Flo.Crash
open Spec CM

theorem Sim.done_ok {α β : Type} {p : β → α × Dom} {m : CM α} {d : Dom} {o : Out β} (h : Sim p m d o) {k j : Nat} {a : α} {x : Dom}
    (e : m k d = .done a x j) : ∃ b, o = .ok b ∧ p b = (a, x) := by
  cases o with
  | ok b =>
    obtain ⟨c, h1, h2⟩ := h
    by_cases hk : k < c
    · obtain ⟨y, hy⟩ := h2 k hk
      rw [hy] at e; cases e
    · obtain ⟨i, rfl⟩ : ∃ i, k = c + i := ⟨k - c, by omega⟩
      rw [h1 i] at e
      cases e
      exact ⟨b, rfl, rfl⟩
  | longjmp => obtain ⟨y, hy⟩ := h k; rw [hy] at e; cases e
  | ub w => rcases h k with hy | ⟨y, hy⟩ <;> rw [hy] at e <;> cases e
  | hang => rcases h k with hy | ⟨y, hy⟩ <;> rw [hy] at e <;> cases e

/-- No row leads from or to the node. -/
structure Unlinked (d : Dom) (n : Nat) : Prop where
  src : ∀ r ∈ d.nn, r.1 ≠ n
  dst : ∀ r ∈ d.nn, r.2 ≠ n
  first : ∀ r ∈ d.fc, r.2 ≠ n

theorem good_lt {N : Nat} {fc pc nn : List Row} {ch : Nat → List Nat} (h : Linked N fc pc nn ch) :
    (∀ r ∈ nn, r.1 < N ∧ r.2 < N) ∧ (∀ r ∈ fc, r.2 < N) := by
  have h2 := h.two
  refine ⟨fun r hr => ?_, fun r hr => ?_⟩
  · rcases h.nnG.nz r hr with rfl | ⟨h1, _⟩
    · exact ⟨by show 0 < N; omega, by show 0 < N; omega⟩
    · have := h.nnLt r.1 r.2 hr h1
      exact ⟨this.1.2, this.2.2⟩
  · rcases h.fcG.nz r hr with rfl | ⟨h1, _⟩
    · show 0 < N; omega
    · have := (h.fcM r.1 r.2 h1).1 hr
      exact (h.range _ _ (List.mem_of_mem_head? this)).2.2

theorem built_unlinked {d x : Dom} {ch : Nat → List Nat} (hi : DomI d ch) (h : Built d x) {n : Nat} (hn : d.nodes.length ≤ n) : Unlinked x n := by
  have hl := good_lt hi.linked
  refine ⟨fun r hr => ?_, fun r hr => ?_, fun r hr => ?_⟩
  · rw [h.nn] at hr; have := (hl.1 r hr).1; omega
  · rw [h.nn] at hr; have := (hl.1 r hr).2; omega
  · rw [h.fc] at hr; have := hl.2 r hr; omega

theorem rowAt_mem {l : List Row} {q : Row → Bool} {i : Nat} (h : l.findIdx? q = some i) : rowAt l i ∈ l := by
  have hlt := (List.findIdx?_eq_some_iff_findIdx_eq.mp h).1
  unfold rowAt
  rw [List.getD_eq_getElem?_getD, List.getElem?_eq_getElem hlt]
  exact List.getElem_mem hlt

theorem lastNext_ne {d : Dom} {n : Nat} (h : ∀ r ∈ d.nn, r.2 ≠ n) : ∀ (f s m : Nat), s ≠ n → lastNextLoop d f s = .ok m → m ≠ n
  | 0, _, _, _, e => by cases e
  | f + 1, s, m, hs, e => by
    unfold lastNextLoop at e
    split at e
    · cases e; exact hs
    · rename_i i hi
      exact lastNext_ne h f _ m (h _ (rowAt_mem hi)) e

theorem connect_none {d : Dom} {p n : Nat} (h : ∀ r ∈ d.nn, r.1 ≠ n) (k : Nat) :
    connectOthersC p n k d = .done () d k ∧ connectOthers p n d = .ok d := by
  have h0 : getNext n d = 0 := getNext_none h
  constructor
  · show connectLoopC p (d.nn.length + 2) (getNext n d) k d = _
    rw [h0, connectLoopC, if_neg (by decide)]; rfl
  · unfold connectOthers
    rw [h0, connectLoop, if_neg (by decide)]

/-- Appending one unlinked node fails before anything is linked, or after everything but its row in the table of parents. -/
theorem appendRefs_fail {x x' : Dom} {p n k : Nat} (hu : Unlinked x n) (e : appendUpdateReferencesC p n k x = .fail x') :
    x' = x ∨ ∃ y, appendUpdateReferences p n x = .ok y ∧ SameButParents y x' ∧ x'.pc = x.pc := by
  unfold appendUpdateReferencesC at e
  unfold appendUpdateReferences
  rw [bind_run] at e
  simp only [CM.read] at e
  cases hf : getFirstChildNode p x with
  | none =>
    rw [hf] at e
    match k, e with
    | 0, e => left; cases e; rfl
    | 1, e =>
      right
      cases e
      exact ⟨_, (connect_none (p := p) (d := { x with fc := x.fc ++ [(p, n)], pc := x.pc ++ [(p, n)] }) hu.src 0).2, rfl, rfl⟩
    | k + 2, e =>
      have := (connect_none (p := p) (d := { x with fc := x.fc ++ [(p, n)], pc := x.pc ++ [(p, n)] }) hu.src k).1
      have e' : connectOthersC p n k { x with fc := x.fc ++ [(p, n)], pc := x.pc ++ [(p, n)] } = .fail x' := e
      rw [this] at e'; cases e'
  | some i =>
    rw [hf] at e
    simp only [bind_run, CM.ask] at e
    cases hl : getLastNext (rowAt x.fc i).2 x with
    | ok last =>
      rw [hl] at e
      have hne : last ≠ n := lastNext_ne hu.dst _ _ _ (hu.first _ (rowAt_mem hf)) hl
      have hfrom : ∀ r ∈ x.nn ++ [(last, n)], r.1 ≠ n := by
        intro r hr
        rcases List.mem_append.mp hr with hr | hr
        · exact hu.src r hr
        · rw [List.mem_singleton.mp hr]; exact hne
      match k, e with
      | 0, e => left; cases e; rfl
      | 1, e =>
        right
        cases e
        refine ⟨{ x with nn := x.nn ++ [(last, n)], pc := x.pc ++ [(p, n)] }, ?_, rfl, rfl⟩
        dsimp only
        rw [hl, Out.bind_ok]
        exact (connect_none (p := p) (d := { x with nn := x.nn ++ [(last, n)], pc := x.pc ++ [(p, n)] }) hfrom 0).2
      | k + 2, e =>
        have := (connect_none (p := p) (d := { x with nn := x.nn ++ [(last, n)], pc := x.pc ++ [(p, n)] }) hfrom k).1
        have e' : connectOthersC p n k { x with nn := x.nn ++ [(last, n)], pc := x.pc ++ [(p, n)] } = .fail x' := e
        rw [this] at e'; cases e'
    | longjmp => rw [hl] at e; left; cases e; rfl
    | ub w => rw [hl] at e; cases e
    | hang => rw [hl] at e; cases e

/-! ## Printing does not read the parents -/

theorem children_pc {d : Dom} {q : List Row} {pr pr' : Nat → Out Str} (h : ∀ n, pr n = pr' n) :
    ∀ f c, printChildren pr { d with pc := q } f c = printChildren pr' d f c
  | 0, _ => rfl
  | f + 1, c => by
    unfold printChildren
    rw [h c]
    have := children_pc (d := d) (q := q) h f (getNext c d)
    split
    · cases pr' c with
      | ok a => simp only [Out.bind_ok]; rw [← this]; rfl
      | _ => rfl
    · rfl

theorem bools_pc (d : Dom) (q : List Row) (n : Nat) : ∀ rs, printBools n { d with pc := q } rs = printBools n d rs
  | [] => rfl
  | r :: rs => by
    unfold printBools
    rw [bools_pc d q n rs]

theorem props_pc (d : Dom) (q : List Row) (n : Nat) : ∀ rs, printProps n { d with pc := q } rs = printProps n d rs
  | [] => rfl
  | r :: rs => by
    unfold printProps
    rw [props_pc d q n rs]

theorem node_pc (d : Dom) (q : List Row) : ∀ f n, printNodeF { d with pc := q } f n = printNodeF d f n
  | 0, _ => rfl
  | f + 1, n => by
    have hc := children_pc (d := d) (q := q) (fun n => node_pc d q f n)
    unfold printNodeF
    simp only [bools_pc d q n, props_pc d q n]
    have hg : getFirstChild n { d with pc := q } = getFirstChild n d := rfl
    have hn : Dom.node { d with pc := q } n = d.node n := rfl
    simp only [hg, hn, hc]

theorem print_pc (d : Dom) (q : List Row) : printHTML { d with pc := q } = printHTML d := by
  unfold printHTML
  exact children_pc (fun n => node_pc d q _ n) _ _

/-! ## The calls -/

/-- What a failing call may leave: what was there before, as far as it is read, or what a successful call makes without the row of the new node in the
table of parents. -/
def Left (d : Dom) (o : Out (Nat × Dom)) (x' : Dom) : Prop :=
  Ext d x' ∨ ∃ i y, o = .ok (i, y) ∧ SameButParents y x' ∧ x'.pc = d.pc

section Ops
variable {d : Dom} {ch : Nat → List Nat} (hi : DomI d ch)
include hi

theorem appendDoc_left {p k : Nat} {doc : DocNode} {x' : Dom} (e : appendDocumentNodeC p doc k d = .fail x') :
    Left d (appendDocumentNode p doc d) x' := by
  have hb : Built d d := ⟨Ext.rfl' d, rfl, rfl, rfl⟩
  have ht := parseDocumentElement_tri (closed_built d) doc k d hb
  have hs := sim_parseDocumentElement doc d
  unfold appendDocumentNodeC at e
  unfold appendDocumentNode
  rw [bind_run] at e
  cases hm : parseDocumentElementC doc k d with
  | done id x j =>
    rw [hm] at e ht
    obtain ⟨b, h1, h2⟩ := hs.done_ok hm
    obtain rfl : b = (id, x) := h2
    rw [h1, Out.bind_ok]
    dsimp only at e ht ⊢
    have h0 : ¬ id = 0 := by have := hi.linked.two; have := ht.2; omega
    rw [if_neg h0] at e ⊢
    rw [bind_run] at e
    cases ha : appendUpdateReferencesC p id j x with
    | done a y j' => rw [ha] at e; cases e
    | stop => rw [ha] at e; cases e
    | fail y =>
      rw [ha] at e; cases e
      rcases appendRefs_fail (built_unlinked hi ht.1 ht.2) ha with rfl | ⟨y, h1, h2, h3⟩
      · exact Or.inl ht.1.ext
      · exact Or.inr ⟨id, y, by rw [h1, Out.bind_ok], h2, by rw [h3, ht.1.pc]⟩
  | fail x => rw [hm] at e ht; cases e; exact Or.inl ht.ext
  | stop => rw [hm] at e; cases e

theorem appendText_left {p k : Nat} {t : Str} {x' : Dom} (e : appendTextNodeC p t k d = .fail x') :
    Left d (appendTextNode p t d) x' := by
  have hb : Built d d := ⟨Ext.rfl' d, rfl, rfl, rfl⟩
  have ht := parseTextElement_tri (closed_built d) t k d hb
  have hs := sim_parseTextElement t d
  unfold appendTextNodeC at e
  unfold appendTextNode
  rw [bind_run] at e
  cases hm : parseTextElementC t k d with
  | done id x j =>
    rw [hm] at e ht
    obtain ⟨b, h1, h2⟩ := hs.done_ok hm
    obtain rfl : b = (id, x) := h2
    rw [h1, Out.bind_ok]
    dsimp only at e ht ⊢
    have h0 : ¬ id = 0 := by have := hi.linked.two; have := ht.2; omega
    rw [if_neg h0] at e ⊢
    have tail : ∀ j y, Built d y → (do appendUpdateReferencesC p id; pure id : CM Nat) j y = .fail x' →
        Left d (do
          let d ← appendUpdateReferences p id y
          .ok (id, d)) x' := by
      intro j y hy e
      rw [bind_run] at e
      cases ha : appendUpdateReferencesC p id j y with
      | done a y j' => rw [ha] at e; cases e
      | stop => rw [ha] at e; cases e
      | fail z =>
        rw [ha] at e; cases e
        rcases appendRefs_fail (built_unlinked hi hy ht.2) ha with rfl | ⟨z, h1, h2, h3⟩
        · exact Or.inl hy.ext
        · exact Or.inr ⟨id, z, by rw [h1, Out.bind_ok], h2, by rw [h3, hy.pc]⟩
    rw [bind_run] at e
    simp only [CM.read] at e
    by_cases hf : getFirstChild p x > 0
    · rw [if_pos hf] at e ⊢
      rw [bind_run] at e
      simp only [CM.ask] at e
      cases hl : getLastNext (getFirstChild p x) x with
      | ok last =>
        rw [hl] at e
        rw [Out.bind_ok]
        dsimp only at e
        rw [bind_run] at e
        have hmt := tryMerge_fail (closed_built d).toInterning last id true j x ht.1
        have hms := sim_tryMerge last id true x
        cases hq : tryMergeC last id true j x with
        | done b y j' =>
          rw [hq] at e hmt
          obtain ⟨b', h1, h2⟩ := hms.done_ok hq
          obtain rfl : b' = (b, y) := h2
          rw [h1, Out.bind_ok]
          dsimp only at e hmt ⊢
          cases b with
          | true =>
            rw [if_pos rfl] at e
            rw [bind_run] at e
            simp only [CM.change] at e
            cases hr : removeNode id y with
            | ok z => rw [hr] at e; cases e
            | longjmp => exact absurd hr (removeNode_noJump id y)
            | ub w => rw [hr] at e; cases e
            | hang => rw [hr] at e; cases e
          | false =>
            rw [if_neg (by decide)] at e ⊢
            exact tail j' y (hmt rfl) e
        | fail y => rw [hq] at e hmt; cases e; exact Or.inl hmt.ext
        | stop => rw [hq] at e; cases e
      | longjmp => rw [hl] at e; cases e; exact Or.inl ht.1.ext
      | ub w => rw [hl] at e; cases e
      | hang => rw [hl] at e; cases e
    · rw [if_neg hf] at e ⊢
      exact tail j x ht.1 e
  | fail x => rw [hm] at e ht; cases e; exact Or.inl ht.ext
  | stop => rw [hm] at e; cases e

end Ops

end Flo.Crash
