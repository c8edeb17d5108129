import Verif.Proofs.CrashAppend
/-!
# Failing calls that prepend one new node, or set the text (C125)
-/
namespace Flo.Crash
open Spec CM

theorem connectLoop_pc (p : Nat) (z : Dom) : ∀ f o, Tri (SameButParents z) (connectLoopC p f o) (fun _ => SameButParents z) (SameButParents z)
  | 0, _ => fun _ _ _ => trivial
  | f + 1, o => by
    unfold connectLoopC
    refine Tri.iteC (fun _ => ?_) fun _ => Tri.pure fun _ h => h
    refine (Tri.push (Q := SameButParents z) (fun _ h => h) fun x h => ?_).bind fun _ => (Tri.read _).bind fun nx =>
      (connectLoop_pc p z f nx).mono (fun _ h => h.1) (fun _ _ h => h) fun _ h => h
    show _ = _
    rw [h]

theorem connect_pc (p n : Nat) (z : Dom) : Tri (SameButParents z) (connectOthersC p n) (fun _ => SameButParents z) (SameButParents z) :=
  (Tri.read _).bind fun _ => (Tri.read _).bind fun nx => (connectLoop_pc p z _ nx).mono (fun _ h => h.1.1) (fun _ _ h => h) fun _ h => h

theorem SameButParents.refl (d : Dom) : SameButParents d d := rfl

theorem SameButParents.symm {d e : Dom} (h : SameButParents d e) : SameButParents e d := by
  unfold SameButParents at h ⊢
  rw [h]

theorem SameButParents.trans {d e f : Dom} (h : SameButParents d e) (h' : SameButParents e f) : SameButParents d f := by
  unfold SameButParents at h h' ⊢
  rw [h', h]

/-- The connecting loop, on the state `z` it starts with: what it leaves when it fails differs from what it makes when it succeeds in the parents only. -/
theorem connect_fail {p n k : Nat} {z x' y : Dom} (e : connectOthersC p n k z = .fail x') (hy : connectOthers p n z = .ok y) : SameButParents y x' := by
  have h1 : SameButParents z x' := (connect_pc p n z).fails (SameButParents.refl z) e
  have hs := sim_connectOthers p n z
  rw [hy] at hs
  obtain ⟨c, h2, _⟩ := hs
  have h3 := connect_pc p n z (c + 0) z (SameButParents.refl z)
  rw [h2 0] at h3
  exact SameButParents.trans (SameButParents.symm h3) h1

/-- The state in which the parent's first child has been exchanged and the row that leads on is missing: the old children are lost. -/
structure Lost (p n : Nat) (x y x' : Dom) : Prop where
  had : getFirstChild p x ≠ 0
  state : x' = { y with nn := x.nn, pc := x.pc }
  first : getFirstChild p x' = n
  last : getNext n x' = 0
  base : ∃ q, x' = { x with fc := q }
  others : ∀ m, m ≠ p → getFirstChild m x' = getFirstChild m x

/-- Exchanging the child in the row of `p` changes the first child of no other node. -/
theorem first_set {x : Dom} {p n i : Nat} (hf : getFirstChildNode p x = some i) {m : Nat} (hm : m ≠ p) :
    getFirstChild m { x with fc := x.fc.set i (p, n) } = getFirstChild m x := by
  obtain ⟨hlt, hk, _⟩ := List.findIdx?_eq_some_iff_getElem.1 hf
  have hk : x.fc[i].1 = p := by simpa using hk
  have hidx : (x.fc.set i (p, n)).findIdx? (fun r => r.1 == m) = x.fc.findIdx? (fun r => r.1 == m) := by
    have hget : ∀ j (hj : j < x.fc.length), ((x.fc.set i (p, n))[j]'(by simpa using hj)).1 = x.fc[j].1 := by
      intro j hj
      by_cases hij : i = j
      · subst hij; rw [List.getElem_set_self, hk]
      · rw [List.getElem_set_ne hij]
    cases h : x.fc.findIdx? (fun r => r.1 == m) with
    | none =>
      rw [List.findIdx?_eq_none_iff] at h ⊢
      intro r hr
      obtain ⟨j, hj, rfl⟩ := List.getElem_of_mem hr
      have hj' : j < x.fc.length := by simpa using hj
      rw [hget j hj']
      exact h _ (List.getElem_mem hj')
    | some j =>
      rw [List.findIdx?_eq_some_iff_getElem] at h ⊢
      obtain ⟨hj, h1, h2⟩ := h
      refine ⟨by simpa using hj, by rw [hget j hj]; exact h1, fun l hl => ?_⟩
      rw [hget l (by omega)]
      exact h2 l hl
  unfold getFirstChild getFirstChildNode
  dsimp only
  rw [hidx]
  cases h : x.fc.findIdx? (fun r => r.1 == m) with
  | none => rfl
  | some j =>
    obtain ⟨hj, h1, _⟩ := List.findIdx?_eq_some_iff_getElem.1 h
    have hij : i ≠ j := by
      rintro rfl
      simp at h1
      exact hm (h1.symm.trans hk)
    unfold rowAt
    simp only [List.getD_eq_getElem?_getD, List.getElem?_set_ne hij]

theorem prependRefs_fail {x x' y : Dom} {p n k : Nat} (hu : Unlinked x n) (hz : ∀ r ∈ x.fc, r.1 = p → r.2 ≠ 0)
    (hy : prependUpdateReferences p n x = .ok y) (e : prependUpdateReferencesC p n k x = .fail x') :
    x' = x ∨ SameButParents y x' ∨ Lost p n x y x' := by
  unfold prependUpdateReferencesC at e
  unfold prependUpdateReferences at hy
  rw [bind_run] at e
  simp only [CM.read] at e
  cases hf : getFirstChildNode p x with
  | none =>
    rw [hf] at e hy
    dsimp only at hy
    match k, e with
    | 0, e => left; cases e; rfl
    | 1, e =>
      right; left
      cases e
      have := (connect_pc p n { x with fc := x.fc ++ [(p, n)], pc := x.pc ++ [(p, n)] })
      have hs := sim_connectOthers p n { x with fc := x.fc ++ [(p, n)], pc := x.pc ++ [(p, n)] }
      rw [hy] at hs
      obtain ⟨c, h2, _⟩ := hs
      have h3 := this (c + 0) _ (SameButParents.refl _)
      rw [h2 0] at h3
      exact SameButParents.trans (SameButParents.symm h3) rfl
    | k + 2, e => exact Or.inr (Or.inl (connect_fail e hy))
  | some i =>
    rw [hf] at e hy
    dsimp only at hy
    have hmem := rowAt_mem hf
    have hlt : i < x.fc.length := (List.findIdx?_eq_some_iff_findIdx_eq.mp hf).1
    have hkey : (rowAt x.fc i).1 = p := by
      have := (List.findIdx?_eq_some_iff_getElem.1 hf).2.1
      unfold rowAt
      rw [List.getD_eq_getElem?_getD, List.getElem?_eq_getElem hlt]
      simpa using this
    rw [Out.bind_eq_ok] at hy
    obtain ⟨last, hl, hy⟩ := hy
    have e : (do
        let lastNew ← ask fun d => getLastNext n d
        push fun d => { d with nn := d.nn ++ [(lastNew, (rowAt x.fc i).2)] }
        push fun d => { d with pc := d.pc ++ [(p, n)] }
        connectOthersC p n : CM Unit) k { x with fc := x.fc.set i ((rowAt x.fc i).1, n) } = .fail x' := e
    rw [bind_run] at e
    simp only [CM.ask] at e
    rw [hl] at e
    have hyz : SameButParents y { x with fc := x.fc.set i ((rowAt x.fc i).1, n), nn := x.nn ++ [(last, (rowAt x.fc i).2)], pc := x.pc ++ [(p, n)] } := by
      have := (connect_pc p n { x with fc := x.fc.set i ((rowAt x.fc i).1, n), nn := x.nn ++ [(last, (rowAt x.fc i).2)], pc := x.pc ++ [(p, n)] })
      have hs := sim_connectOthers p n { x with fc := x.fc.set i ((rowAt x.fc i).1, n), nn := x.nn ++ [(last, (rowAt x.fc i).2)], pc := x.pc ++ [(p, n)] }
      rw [hy] at hs
      obtain ⟨c, h2, _⟩ := hs
      have h3 := this (c + 0) _ (SameButParents.refl _)
      rw [h2 0] at h3
      exact SameButParents.symm h3
    match k, e with
    | 0, e =>
      right; right
      cases e
      refine ⟨?_, ?_, ?_, getNext_none (d := { x with fc := x.fc.set i ((rowAt x.fc i).1, n) }) hu.src, ⟨_, rfl⟩, ?_⟩
      · unfold getFirstChild
        rw [hf]
        exact hz _ hmem hkey
      · have := SameButParents.symm hyz
        unfold SameButParents at this
        rw [this]
      · unfold getFirstChild getFirstChildNode
        have h1 := List.findIdx?_eq_some_iff_getElem.1 hf
        have : (x.fc.set i ((rowAt x.fc i).1, n)).findIdx? (fun r => r.1 == p) = some i := by
          rw [List.findIdx?_eq_some_iff_getElem]
          refine ⟨by simpa using hlt, ?_, fun j hj => ?_⟩
          · rw [List.getElem_set_self, hkey]; simp
          · have h2 := h1.2.2 j hj
            have hji : i ≠ j := by omega
            rw [List.getElem_set_ne hji]
            exact h2
        dsimp only
        rw [this]
        unfold rowAt
        dsimp only
        rw [List.getD_eq_getElem?_getD, List.getElem?_set_self hlt]
        rfl
      · intro m hm
        rw [hkey]
        exact first_set hf hm
    | 1, e =>
      right; left
      cases e
      exact SameButParents.trans hyz rfl
    | k + 2, e => exact Or.inr (Or.inl (connect_fail e hy))

theorem fc_nonzero {d : Dom} {ch : Nat → List Nat} (h : LinkedD d ch) {p : Nat} (hp : p ≠ 0) : ∀ r ∈ d.fc, r.1 = p → r.2 ≠ 0 := by
  intro r hr h1
  rcases h.fcG.nz r hr with h0 | h0
  · rw [h0] at h1; exact absurd h1.symm hp
  · exact h0.2

/-- What a failing prepend may leave. -/
def LeftP (p : Nat) (d : Dom) (o : Out (Nat × Dom)) (x' : Dom) : Prop :=
  Ext d x' ∨ ∃ i y, o = .ok (i, y) ∧ (SameButParents y x' ∨ ∃ x, Ext d x ∧ i = d.nodes.length ∧ Lost p i x y x')

section Ops
variable {d : Dom} {ch : Nat → List Nat} (hi : DomI d ch) (h0 : ch 0 = [])
include hi h0

theorem prependTail {p id j : Nat} {x x' : Dom} (hp : p ≠ 0) (hlt : p < d.nodes.length) (hb : Built d x) (hm : Made d ch id x)
    (e : (do prependUpdateReferencesC p id; pure id : CM Nat) j x = .fail x') :
    LeftP p d (do
      let d ← prependUpdateReferences p id x
      .ok (id, d)) x' := by
  have hid := hm.id
  subst hid
  obtain ⟨y, hy, _⟩ := prependUpdate_spec hm.inv.linked (p := p) (f0 := d.nodes.length) (F := []) (by simp) hp (by simpa using hlt)
  rw [hy, Out.bind_ok]
  rw [bind_run] at e
  cases ha : prependUpdateReferencesC p d.nodes.length j x with
  | done a z j' => rw [ha] at e; cases e
  | stop => rw [ha] at e; cases e
  | fail z =>
    rw [ha] at e; cases e
    rcases prependRefs_fail (built_unlinked hi hb (Nat.le_refl _)) (fc_nonzero hm.inv.linked hp) hy ha with rfl | h | h
    · exact Or.inl hb.ext
    · exact Or.inr ⟨_, y, rfl, Or.inl h⟩
    · exact Or.inr ⟨_, y, rfl, Or.inr ⟨x, hb.ext, rfl, h⟩⟩

theorem prependDoc_left {p k : Nat} {doc : DocNode} {x' : Dom} (hp : p ≠ 0) (hlt : p < d.nodes.length) (e : prependDocumentNodeC p doc k d = .fail x') :
    LeftP p d (prependDocumentNode p doc d) x' := by
  have hb : Built d d := ⟨Ext.rfl' d, rfl, rfl, rfl⟩
  have ht := parseDocumentElement_tri (closed_built d) doc k d hb
  have hs := sim_parseDocumentElement doc d
  have hp' := mkDoc hi h0 doc
  unfold prependDocumentNodeC at e
  unfold prependDocumentNode
  rw [bind_run] at e
  cases hm : parseDocumentElementC doc k d with
  | done id x j =>
    rw [hm] at e ht
    obtain ⟨b, h1, h2⟩ := hs.done_ok hm
    obtain rfl : b = (id, x) := h2
    rw [h1] at hp'
    rw [h1, Out.bind_ok]
    dsimp only at e ht ⊢
    have h0' : ¬ id = 0 := by have := hi.linked.two; have := ht.2; omega
    rw [if_neg h0'] at e ⊢
    exact prependTail hi h0 hp hlt ht.1 hp'.1 e
  | fail x => rw [hm] at e ht; cases e; exact Or.inl ht.ext
  | stop => rw [hm] at e; cases e

theorem prependText_left {p k : Nat} {t : Str} {x' : Dom} (hp : p ≠ 0) (hlt : p < d.nodes.length) (e : prependTextNodeC p t k d = .fail x') :
    LeftP p d (prependTextNode p t d) x' := by
  have hb : Built d d := ⟨Ext.rfl' d, rfl, rfl, rfl⟩
  have ht := parseTextElement_tri (closed_built d) t k d hb
  have hs := sim_parseTextElement t d
  have hp' := mkText hi h0 t
  unfold prependTextNodeC at e
  unfold prependTextNode
  rw [bind_run] at e
  cases hm : parseTextElementC t k d with
  | done id x j =>
    rw [hm] at e ht
    obtain ⟨b, h1, h2⟩ := hs.done_ok hm
    obtain rfl : b = (id, x) := h2
    rw [h1] at hp'
    rw [h1, Out.bind_ok]
    dsimp only at e ht ⊢
    have h0' : ¬ id = 0 := by have := hi.linked.two; have := ht.2; omega
    rw [if_neg h0'] at e ⊢
    rw [bind_run] at e
    simp only [CM.read] at e
    by_cases hf : getFirstChild p x > 0
    · rw [if_pos hf] at e ⊢
      rw [bind_run] at e
      have hmt := tryMerge_fail (closed_built d).toInterning (getFirstChild p x) id false j x ht.1
      have hms := sim_tryMerge (getFirstChild p x) id false x
      cases hq : tryMergeC (getFirstChild p x) id false j x with
      | done b y j' =>
        rw [hq] at e hmt
        obtain ⟨b', g1, g2⟩ := hms.done_ok hq
        obtain rfl : b' = (b, y) := g2
        rw [g1, Out.bind_ok]
        dsimp only at e hmt ⊢
        cases b with
        | true =>
          rw [if_pos rfl] at e
          rw [bind_run] at e
          simp only [CM.change] at e
          cases hr : removeNode id y with
          | ok z => rw [hr] at e; cases e
          | longjmp => exact absurd hr (removeNode_noJump id y)
          | ub w => rw [hr] at e; cases e
          | hang => rw [hr] at e; cases e
        | false =>
          rw [if_neg (by decide)] at e ⊢
          have hyx : y = x := by
            unfold tryMerge at g1
            rw [Out.bind_eq_ok] at g1
            obtain ⟨nd, _, g1⟩ := g1
            split at g1
            · rw [Out.bind_eq_ok] at g1
              obtain ⟨_, _, g1⟩ := g1
              rw [Out.bind_eq_ok] at g1
              obtain ⟨_, _, g1⟩ := g1
              rw [Out.bind_eq_ok] at g1
              obtain ⟨_, _, g1⟩ := g1
              cases g1
            · cases g1; rfl
          subst hyx
          exact prependTail hi h0 hp hlt ht.1 hp'.1 e
      | fail y => rw [hq] at e hmt; cases e; exact Or.inl hmt.ext
      | stop => rw [hq] at e; cases e
    · rw [if_neg hf] at e ⊢
      exact prependTail hi h0 hp hlt ht.1 hp'.1 e
  | fail x => rw [hm] at e ht; cases e; exact Or.inl ht.ext
  | stop => rw [hm] at e; cases e

omit h0 in
theorem setText_left {n k : Nat} {t : Str} {x' : Dom} (hn : n ≠ 0) (hlt : n < d.nodes.length) (e : setTextContentC n t k d = .fail x') :
    ∃ d1, removeChildren n d = .ok d1 ∧ (Ext d1 x' ∨ ∃ y, setTextContent n t d = .ok y ∧ SameButParents y x') := by
  obtain ⟨d1, e1, i1, _⟩ := dropKids hi hn hlt
  refine ⟨d1, e1, ?_⟩
  have hb : Built d1 d1 := ⟨Ext.rfl' d1, rfl, rfl, rfl⟩
  have ht := parseTextElement_tri (closed_built d1) t k d1 hb
  have hs := sim_parseTextElement t d1
  unfold setTextContentC at e
  unfold setTextContent
  rw [e1, Out.bind_ok]
  rw [bind_run] at e
  simp only [CM.change, e1] at e
  rw [bind_run] at e
  cases hm : parseTextElementC t k d1 with
  | done id x j =>
    rw [hm] at e ht
    obtain ⟨b, h1, h2⟩ := hs.done_ok hm
    obtain rfl : b = (id, x) := h2
    rw [h1, Out.bind_ok]
    dsimp only at e ht ⊢
    match j, e with
    | 0, e => cases e; exact Or.inl ht.1.ext
    | 1, e => cases e; exact Or.inr ⟨_, rfl, rfl⟩
    | j + 2, e => cases e
  | fail x => rw [hm] at e ht; cases e; exact Or.inl ht.ext
  | stop => rw [hm] at e; cases e

end Ops
end Flo.Crash
