import Verif.Proofs.CrashPrint
import Verif.Proofs.QuerySet
/-!
# Wherever an edit fails, the document can be printed: the calls (C129, C130)
-/
namespace Flo.Crash
open Spec CM

theorem tryMerge_false {i j : Nat} {e : Bool} {x y : Dom} (h : tryMerge i j e x = .ok (false, y)) : y = x := by
  unfold tryMerge at h
  rw [Out.bind_eq_ok] at h
  obtain ⟨nd, _, h⟩ := h
  split at h
  · rw [Out.bind_eq_ok] at h
    obtain ⟨_, _, h⟩ := h
    rw [Out.bind_eq_ok] at h
    obtain ⟨_, _, h⟩ := h
    rw [Out.bind_eq_ok] at h
    obtain ⟨_, _, h⟩ := h
    cases h
  · cases h; rfl

theorem mergePrev_false {i j : Nat} {x y : Dom} (h : tryMergePrev i j x = .ok (false, y)) : y = x := by
  unfold tryMergePrev at h
  split at h
  · exact tryMerge_false h
  · cases h; rfl

theorem mergeNext_false {i j : Nat} {x y : Dom} (h : tryMergeNext i j x = .ok (false, y)) : y = x := by
  unfold tryMergeNext at h
  split at h
  · exact tryMerge_false h
  · cases h; rfl

theorem mergeBoth_false {i j : Nat} {x y : Dom} (h : tryMergeBothSides i j x = .ok (false, y)) : y = x := by
  unfold tryMergeBothSides at h
  rw [Out.bind_eq_ok] at h
  obtain ⟨nd, _, h⟩ := h
  split at h
  · rw [Out.bind_eq_ok] at h
    obtain ⟨⟨b, z⟩, hz, h⟩ := h
    dsimp only at h
    cases b with
    | true => cases h
    | false =>
      rw [if_neg (by decide)] at h
      rw [mergeNext_false h, mergePrev_false hz]
  · cases h; rfl

section Rules
variable {α β : Type} {x : Dom} {Q : Dom → Prop}

theorem TP.askNo {f : Dom → Out α} {g : α → CM β} (hx : f x ≠ .longjmp) (hg : ∀ a, f x = .ok a → TP Q (g a) x) : TP Q (CM.ask f >>= g) x := by
  intro k x' e
  rw [bind_run] at e
  unfold CM.ask at e
  cases hf : f x with
  | ok a => rw [hf] at e; exact hg a hf k x' e
  | longjmp => exact absurd hf hx
  | ub w => rw [hf] at e; cases e
  | hang => rw [hf] at e; cases e

/-- A merge changes nothing when it fails, nor when there is nothing to merge. -/
def Merges (m : CM Bool) (o : Dom → Out (Bool × Dom)) : Prop :=
  ∀ (Q : Dom → Prop) x, Q x → TP Q m x ∧ ∀ b y j k, m k x = .done b y j → o x = .ok (b, y) ∧ (b = false → y = x)

theorem merges_merge (i j : Nat) (e : Bool) : Merges (tryMergeC i j e) (tryMerge i j e) := by
  refine fun Q x hx => ⟨fun k x' h => by rw [(tryMerge_keep (x := x) i j e).fails rfl h]; exact hx, fun b y j' k hm => ?_⟩
  obtain ⟨b', h1, h2⟩ := (sim_tryMerge i j e x).done_ok hm
  obtain rfl : b' = (b, y) := h2
  exact ⟨h1, fun hb => tryMerge_false (hb ▸ h1)⟩

theorem merges_prev (i j : Nat) : Merges (tryMergePrevC i j) (tryMergePrev i j) := by
  refine fun Q x hx => ⟨?_, fun b y j' k hm => ?_⟩
  · unfold tryMergePrevC
    refine TP.read ?_
    cases getPreviousNode i x with
    | none => exact TP.pure
    | some v => exact TP.read (merges_merge _ _ _ Q x hx).1
  · obtain ⟨b', h1, h2⟩ := (sim_mergePrev i j x).done_ok hm
    obtain rfl : b' = (b, y) := h2
    exact ⟨h1, fun hb => mergePrev_false (hb ▸ h1)⟩

theorem merges_next (i j : Nat) : Merges (tryMergeNextC i j) (tryMergeNext i j) := by
  refine fun Q x hx => ⟨?_, fun b y j' k hm => ?_⟩
  · unfold tryMergeNextC
    refine TP.read ?_
    cases getNextNode i x with
    | none => exact TP.pure
    | some v => exact TP.read (merges_merge _ _ _ Q x hx).1
  · obtain ⟨b', h1, h2⟩ := (sim_mergeNext i j x).done_ok hm
    obtain rfl : b' = (b, y) := h2
    exact ⟨h1, fun hb => mergeNext_false (hb ▸ h1)⟩

theorem merges_both (i j : Nat) : Merges (tryMergeBothSidesC i j) (tryMergeBothSides i j) := by
  refine fun Q x hx => ⟨?_, fun b y j' k hm => ?_⟩
  · unfold tryMergeBothSidesC
    refine TP.ask hx fun nd _ => TP.ite (fun _ => ?_) fun _ => TP.pure
    refine TP.bind (merges_prev i j Q x hx).1 fun b y j' k hm => TP.ite (fun _ => TP.pure) fun hb => ?_
    rw [((merges_prev i j Q x hx).2 b y j' k hm).2 (by simpa using hb)]
    exact (merges_next i j Q x hx).1
  · obtain ⟨b', h1, h2⟩ := (sim_mergeBoth i j x).done_ok hm
    obtain rfl : b' = (b, y) := h2
    exact ⟨h1, fun hb => mergeBoth_false (hb ▸ h1)⟩

theorem TP.merging {m : CM Bool} {o : Dom → Out (Bool × Dom)} (hm : Merges m o) {g : Bool → CM β} (hx : Q x)
    (ht : ∀ y, o x = .ok (true, y) → TP Q (g true) y) (hf : TP Q (g false) x) : TP Q (m >>= g) x := by
  refine TP.bind (hm Q x hx).1 fun b y j k e => ?_
  obtain ⟨h1, h2⟩ := (hm Q x hx).2 b y j k e
  cases b with
  | true => exact ht y h1
  | false => rw [h2 rfl]; exact hf

theorem replaceReturn_noJump (v : Option Nat) (d : Dom) : replaceReturn v d ≠ .longjmp := by
  unfold replaceReturn
  split <;> exact fun h => by cases h

end Rules

/-- A merge that succeeds had a text to merge into. -/
theorem merge_text {m z : Dom} {c : Nat → List Nat} (h : DomI m c) {k g p : Nat} {e : Bool} (hk : k ∈ c p)
    (hm : tryMerge k g e m = .ok (true, z)) : ∃ t, textOf m k = some t := by
  rcases kid_cases h hk with h1 | ⟨h1, _⟩
  · exact h1
  · rw [tryMerge_other h1 (by simp)] at hm; cases hm

/-- The new text was merged and is removed. -/
theorem merged_drop {m z : Dom} {c : Nat → List Nat} (h : DomI m c) {g k p : Nat} (hg : g ∈ c 0) (hl : typeOf m g = some .text → c g = [])
    (hty : typeOf m g = some .text) (hp : p ≠ 0) (hk : k ∈ c p) {e : Bool} (hm : tryMerge k g e m = .ok (true, z)) :
    DomI z c ∧ ∃ d3 tk tg, textOf m k = some tk ∧ removeNode g z = .ok d3 ∧
      FragMerged m (upd c 0 ((c 0).erase g)) k g (if e then tk ++ [32] ++ tg else tg ++ [32] ++ tk) d3 := by
  obtain ⟨tk, htk⟩ := merge_text h hk hm
  obtain ⟨tg, htg⟩ := h.text hty
  obtain ⟨d2, d3, e2, i2, e3, mm⟩ := mergeNew h hg (hl hty) hp hk htk htg e
  rw [hm] at e2
  cases e2
  exact ⟨i2, d3, tk, tg, htk, e3, mm⟩

/-! ## The document that is left -/

theorem SameOrLonger.trans {x y z : Dom} {n : Nat} (h : SameOrLonger x y n) (g : SameOrLonger y z n) : SameOrLonger x z n := by
  rcases h with h | ⟨t, a, b, h1, h2, h3, h4⟩
  · rcases g with g | ⟨t, a, b, g1, g2, g3, g4⟩
    · exact Or.inl (h.trans g)
    · exact Or.inr ⟨t, a, b, by rw [← h.text]; exact g1, g2, g3.trans h.pairs, g4.trans h.bools⟩
  · rcases g with g | ⟨t', a', b', g1, g2, g3, g4⟩
    · exact Or.inr ⟨t, a, b, h1, g.text.trans h2, g.pairs.trans h3, g.bools.trans h4⟩
    · rw [h2] at g1
      cases g1
      exact Or.inr ⟨t, a' ++ a, b ++ b', h1, by simpa [List.append_assoc] using g2, g3.trans h3, g4.trans h4⟩

theorem FragMerged.longer {m y : Dom} {c : Nat → List Nat} {k g n : Nat} {tk tg : Str} {e : Bool} (htk : textOf m k = some tk)
    (h : FragMerged m c k g (if e then tk ++ [32] ++ tg else tg ++ [32] ++ tk) y) (hn : n ≠ g) : SameOrLonger m y n := by
  by_cases hk : n = k
  · subst hk
    refine Or.inr ⟨tk, if e then [] else tg ++ [32], if e then [32] ++ tg else [], htk, ?_, h.attrs.1, h.attrs.2⟩
    rw [h.text]
    cases e <;> simp
  · exact Or.inl (h.others n hk hn)

/-- Can be printed, and differs from `d` in the children of `p` at most. -/
def Touch (d : Dom) (ch : Nat → List Nat) (p : Nat) (opt : List Nat → Prop) (x : Dom) : Prop :=
  CanPrint x ∧ (∀ n, n ≠ 0 → n < d.nodes.length → SameOrLonger d x n) ∧ (∀ q, q ≠ 0 → q ≠ p → q < d.nodes.length → kids x q = ch q) ∧ opt (kids x p)

section Touch
variable {d m x y : Dom} {ch c : Nat → List Nat} {p : Nat} {opt : List Nat → Prop}

theorem SameButParents.nodes (hs : SameButParents x y) (n : Nat) : SameNode x y n := by
  rw [hs]
  exact ⟨rfl, rfl, rfl, rfl, rfl⟩

theorem SameButParents.kids (hs : SameButParents x y) (q : Nat) : kids y q = kids x q := by
  have hk : ∀ f a, chainFrom y f a = chainFrom x f a := by
    intro f
    induction f with
    | zero => intro a; rfl
    | succ f ih =>
      intro a
      have hn : getNext a y = getNext a x := by rw [hs]; rfl
      unfold chainFrom
      rw [hn, ih]
  have h1 : y.nodes.length = x.nodes.length := by rw [hs]
  have h2 : getFirstChild q y = getFirstChild q x := by rw [hs]; rfl
  unfold Spec.kids
  rw [hk, h1, h2]

theorem Touch.but (h : Touch d ch p opt x) (hs : SameButParents x y) : Touch d ch p opt y := by
  have hkk := SameButParents.kids hs
  exact ⟨h.1.but hs, fun n h0 hn => SameOrLonger.trans (h.2.1 n h0 hn) (Or.inl (SameButParents.nodes hs n)),
    fun q a b c => by rw [hkk]; exact h.2.2.1 q a b c, by rw [hkk]; exact h.2.2.2⟩

theorem ext_chain (h : DomI d ch) (he : Ext d x) : ∀ f a, a < d.nodes.length → chainFrom x f a = chainFrom d f a
  | 0, _, _ => rfl
  | f + 1, a, ha => by
    unfold chainFrom
    split
    · rfl
    · rw [he.next ha, ext_chain h he f _ (Flo.getNext_lt h.linked a)]

theorem ext_kids (h : DomI d ch) (he : Ext d x) {q : Nat} (hq : q ≠ 0) (hlt : q < d.nodes.length) : kids x q = ch q := by
  have hle : d.nodes.length ≤ x.nodes.length := by
    obtain ⟨r, hr⟩ := he.nodes
    rw [← hr, List.length_append]; omega
  unfold kids
  rw [he.first hlt, h.linked.getFirstChild_eq hq]
  have hl := h.linked.length_lt q
  cases hc : ch q with
  | nil =>
    simp only [List.headD_nil]
    cases x.nodes.length <;> simp [chainFrom]
  | cons a l =>
    have ha := (h.linked.range q a (by rw [hc]; simp)).2
    simp only [List.headD_cons]
    rw [ext_chain h he _ _ ha.2]
    exact h.linked.chainFrom_eq q l [] a x.nodes.length (by rw [hc]; rfl) (by rw [hc] at hl; simp at hl ⊢; omega)

theorem Touch.ext (h : DomI d ch) (he : Ext d x) (hp : p ≠ 0) (hlt : p < d.nodes.length) (ho : opt (ch p)) : Touch d ch p opt x :=
  ⟨CanPrint.ext (linked_prints h) he, fun n h0 hn => Or.inl ((he.same h).node n h0 hn), fun _ h0 _ hq => ext_kids h he h0 hq, by rw [ext_kids h he hp hlt]; exact ho⟩

/-- The new nodes float, and wait to be linked below `p`. -/
structure Ready (d : Dom) (ch : Nat → List Nat) (m : Dom) (c : Nat → List Nat) : Prop where
  inv : DomI m c
  look : ∀ n, n ≠ 0 → n < d.nodes.length → SameOrLonger d m n
  frame : ∀ q, q ≠ 0 → q < d.nodes.length → c q = ch q
  fresh : ∀ x ∈ c 0, d.nodes.length ≤ x

theorem _root_.Flo.Parsed.ready (P : Parsed d ch m c) : Ready d ch m c :=
  ⟨P.inv, fun n _ hn => Or.inl (P.old n hn), P.frame, fun _ hx => (P.mem0 hx).1⟩

theorem _root_.Flo.Made.ready {n : Nat} (M : Made d ch n m) : Ready d ch m (upd ch 0 [d.nodes.length]) :=
  ⟨M.inv, fun n _ hn => Or.inl (M.others n (by omega)), fun _ hq _ => upd_ne hq, fun x hx => by rw [upd_same] at hx; simp at hx; omega⟩

theorem Ready.merged (R : Ready d ch m c) {k g : Nat} {tk tg : Str} {e : Bool} {F : List Nat} (hg : d.nodes.length ≤ g)
    (hF : ∀ x ∈ F, x ∈ c 0) (htk : textOf m k = some tk)
    (h : FragMerged m (upd c 0 F) k g (if e then tk ++ [32] ++ tg else tg ++ [32] ++ tk) y) : Ready d ch y (upd c 0 F) :=
  ⟨h.inv, fun n h0 hn => SameOrLonger.trans (R.look n h0 hn) (FragMerged.longer htk h (by omega)), fun q h0 hq => by rw [upd_ne h0]; exact R.frame q h0 hq,
    fun x hx => by rw [upd_same] at hx; exact R.fresh x (hF x hx)⟩

theorem Ready.linked (R : Ready d ch m c) (hp : p ≠ 0) {L : List Nat} {z : Dom} (hz : DomI z (upd (upd c 0 []) p L)) (hs : ∀ q, SameNode m z q)
    (ho : opt L) (hy : SameButParents z y) : Touch d ch p opt y := by
  refine Touch.but ⟨linked_prints hz, fun n h0 hn => SameOrLonger.trans (R.look n h0 hn) (Or.inl (hs n)), fun q h0 hq hlt => ?_, ?_⟩ hy
  · rw [hz.linked.kids_eq h0, upd_ne hq, upd_ne h0]; exact R.frame q h0 hlt
  · rw [hz.linked.kids_eq hp, upd_same]; exact ho

theorem Ready.touch (R : Ready d ch m c) (hp : p ≠ 0) (hlt : p < d.nodes.length) (ho : opt (ch p)) : Touch d ch p opt m :=
  ⟨linked_prints R.inv, R.look, fun q h0 _ hq => by rw [R.inv.linked.kids_eq h0]; exact R.frame q h0 hq,
    by rw [R.inv.linked.kids_eq hp, R.frame p hp hlt]; exact ho⟩

/-- The children of `p` with new ones behind. -/
def Behind (N : Nat) (l l' : List Nat) : Prop := ∃ new, l' = l ++ new ∧ ∀ x ∈ new, N ≤ x
/-- The children of `p` with new ones in front; or the new ones alone. -/
def InFront (N : Nat) (l l' : List Nat) : Prop := ∃ new, (l' = new ++ l ∨ l' = new ∧ new ≠ []) ∧ ∀ x ∈ new, N ≤ x
/-- The children of `p`; or those before the one to be replaced, and new ones. -/
def CutOff (N : Nat) (l l₁ l' : List Nat) : Prop := l' = l ∨ ∃ new, new ≠ [] ∧ l' = l₁ ++ new ∧ ∀ x ∈ new, N ≤ x

theorem behind_refl (N : Nat) (l : List Nat) : Behind N l l := ⟨[], by simp, by simp⟩
theorem inFront_refl (N : Nat) (l : List Nat) : InFront N l l := ⟨[], by simp, by simp⟩
theorem cutOff_refl (N : Nat) (l l₁ : List Nat) : CutOff N l l₁ l := Or.inl rfl

variable {f0 : Nat} {F : List Nat}

theorem Ready.append (R : Ready d ch m c) (hF : c 0 = f0 :: F) (hp : p ≠ 0) (hlt : p < d.nodes.length) :
    TP (Touch d ch p (Behind d.nodes.length (ch p))) (appendUpdateReferencesC p f0) m := by
  obtain ⟨d', e, i, s, _⟩ := linkAppend R.inv hF hp fun x hx => by have := R.fresh x hx; omega
  refine append_tp e (R.touch hp hlt (behind_refl _ _)) fun y hy => R.linked hp i s ?_ hy
  exact ⟨f0 :: F, by rw [R.frame p hp hlt], fun x hx => R.fresh x (by rw [hF]; exact hx)⟩

theorem Ready.prepend (R : Ready d ch m c) (hF : c 0 = f0 :: F) (hp : p ≠ 0) (hlt : p < d.nodes.length) :
    TP (Touch d ch p (InFront d.nodes.length (ch p))) (prependUpdateReferencesC p f0) m := by
  have hl : ∀ x ∈ c 0, p < x := fun x hx => by have := R.fresh x hx; omega
  obtain ⟨d', e, i, s, _⟩ := linkPrepend R.inv hF hp hl
  have hf : ∀ x ∈ f0 :: F, d.nodes.length ≤ x := fun x hx => R.fresh x (by rw [hF]; exact hx)
  refine prepend_tp R.inv hF hp hl e (R.touch hp hlt (inFront_refl _ _)) (fun y hy => R.linked hp i s ?_ hy) fun z y hz hs hy => R.linked hp hz hs ?_ hy
  · exact ⟨f0 :: F, Or.inl (by rw [R.frame p hp hlt]), hf⟩
  · exact ⟨f0 :: F, Or.inr ⟨rfl, by simp⟩, hf⟩

theorem Ready.replace (R : Ready d ch m c) (hF : c 0 = f0 :: F) (hp : p ≠ 0) (hlt : p < d.nodes.length) {old : Nat} {l₁ l₂ : List Nat}
    (he : ch p = l₁ ++ old :: l₂) : TP (Touch d ch p (CutOff d.nodes.length (ch p) l₁)) (replaceUpdateReferencesC old f0) m := by
  refine replace_tp R.inv hF hp (fun x hx => by have := R.fresh x hx; omega) (by rw [R.frame p hp hlt]; exact he)
    (R.touch hp hlt (cutOff_refl _ _ _)) fun z y hz hs hy => R.linked hp hz hs ?_ hy
  exact Or.inr ⟨f0 :: F, by simp, rfl, fun x hx => R.fresh x (by rw [hF]; exact hx)⟩

theorem Ready.first (R : Ready d ch m c) {k g : Nat} {L : List Nat} (hF : c 0 = g :: F) (hg : d.nodes.length ≤ g) (fs : FirstStep m c k g F L y) :
    Ready d ch y (upd c 0 L) := by
  rcases fs with ⟨tk, tg, h1, h2, rfl, mm⟩ | ⟨_, rfl, rfl⟩
  · exact R.merged (e := true) hg (fun x hx => by rw [hF]; exact .tail _ hx) h1 mm
  · rw [← hF, upd_self]; exact R

theorem Ready.last (R : Ready d ch m c) {k : Nat} {L L' : List Nat} (hF : c 0 = L) (hL : L ≠ []) (ls : LastStep m c k L L' y) :
    Ready d ch y (upd c 0 L') := by
  rcases ls with ⟨tk, tg, h1, h2, rfl, mm⟩ | ⟨_, rfl, rfl⟩
  · exact R.merged (e := false) (R.fresh _ (by rw [hF]; exact getLastD_mem hL)) (fun x hx => by rw [hF]; exact List.dropLast_subset _ hx) h1 mm
  · rw [← hF, upd_self]; exact R

end Touch

section Ops
variable {d : Dom} {ch : Nat → List Nat}

theorem docElement_tp (doc : DocNode) : TP (Ext d) (parseDocumentElementC doc) d :=
  fun _ _ e => (parseDocumentElement_tri (closed_ext d) doc).fails (Ext.rfl' d) e

theorem textElement_tp (t : Str) : TP (Ext d) (parseTextElementC t) d :=
  fun _ _ e => (parseTextElement_tri (closed_ext d) t).fails (Ext.rfl' d) e

theorem parse_tp (junk : Nat → Out Bool) (s : Str) : TP (Ext d) (parseExtraC junk s) d :=
  fun _ _ e => (parseExtra_tri d junk s).fails (Ext.rfl' d) e

variable (h : DomI d ch) (h0 : ch 0 = [])
include h h0

theorem docElement_done {doc : DocNode} {k j n : Nat} {y : Dom} (e : parseDocumentElementC doc k d = .done n y j) : Made d ch n y := by
  obtain ⟨b, h1, h2⟩ := (sim_parseDocumentElement doc d).done_ok e
  obtain rfl : b = (n, y) := h2
  have := mkDoc h h0 doc
  rw [h1] at this
  exact this.1

theorem textElement_done {t : Str} {k j n : Nat} {y : Dom} (e : parseTextElementC t k d = .done n y j) : Made d ch n y := by
  obtain ⟨b, h1, h2⟩ := (sim_parseTextElement t d).done_ok e
  obtain rfl : b = (n, y) := h2
  have := mkText h h0 t
  rw [h1] at this
  exact this.1

theorem prependDoc_tp {p : Nat} (hp : p ≠ 0) (hlt : p < d.nodes.length) (doc : DocNode) :
    TP (Touch d ch p (InFront d.nodes.length (ch p))) (prependDocumentNodeC p doc) d := by
  have ho := inFront_refl d.nodes.length (ch p)
  unfold prependDocumentNodeC
  refine TP.bind ((docElement_tp doc).mono fun x hx => Touch.ext h hx hp hlt ho) fun n y j k e => TP.ite (fun _ => TP.pure) fun _ => TP.last ?_
  have hm := docElement_done h h0 e
  rw [hm.id]
  exact hm.ready.prepend (F := []) (by simp) hp hlt

theorem prependText_tp {p : Nat} (hp : p ≠ 0) (hlt : p < d.nodes.length) (t : Str) :
    TP (Touch d ch p (InFront d.nodes.length (ch p))) (prependTextNodeC p t) d := by
  have ho := inFront_refl d.nodes.length (ch p)
  unfold prependTextNodeC
  refine TP.bind ((textElement_tp t).mono fun x hx => Touch.ext h hx hp hlt ho) fun n y j k e => TP.ite (fun _ => TP.pure) fun _ => TP.read ?_
  have hm := textElement_done h h0 e
  rw [hm.id]
  have tail : TP (Touch d ch p (InFront d.nodes.length (ch p))) (do prependUpdateReferencesC p d.nodes.length; pure d.nodes.length : CM Nat) y :=
    TP.last (hm.ready.prepend (F := []) (by simp) hp hlt)
  refine TP.ite (fun _ => ?_) fun _ => tail
  refine TP.merging (merges_merge _ _ _) (hm.ready.touch hp hlt ho) (fun z hz => ?_) tail
  exact TP.ite (fun _ => TP.change (removeNode_noJump _) fun _ _ => TP.pure) fun hf => absurd rfl hf

theorem appendDoc_tp {p : Nat} (hp : p ≠ 0) (hlt : p < d.nodes.length) (doc : DocNode) :
    TP (Touch d ch p (Behind d.nodes.length (ch p))) (appendDocumentNodeC p doc) d := by
  have ho := behind_refl d.nodes.length (ch p)
  unfold appendDocumentNodeC
  refine TP.bind ((docElement_tp doc).mono fun x hx => Touch.ext h hx hp hlt ho) fun n y j k e => TP.ite (fun _ => TP.pure) fun _ => TP.last ?_
  have hm := docElement_done h h0 e
  rw [hm.id]
  exact hm.ready.append (F := []) (by simp) hp hlt

theorem appendText_tp {p : Nat} (hp : p ≠ 0) (hlt : p < d.nodes.length) (t : Str) :
    TP (Touch d ch p (Behind d.nodes.length (ch p))) (appendTextNodeC p t) d := by
  have ho := behind_refl d.nodes.length (ch p)
  unfold appendTextNodeC
  refine TP.bind ((textElement_tp t).mono fun x hx => Touch.ext h hx hp hlt ho) fun n y j k e => TP.ite (fun _ => TP.pure) fun _ => TP.read ?_
  have hm := textElement_done h h0 e
  rw [hm.id]
  have tail : TP (Touch d ch p (Behind d.nodes.length (ch p))) (do appendUpdateReferencesC p d.nodes.length; pure d.nodes.length : CM Nat) y :=
    TP.last (hm.ready.append (F := []) (by simp) hp hlt)
  refine TP.ite (fun _ => ?_) fun _ => tail
  refine TP.ask (hm.ready.touch hp hlt ho) fun last _ => ?_
  refine TP.merging (merges_merge _ _ _) (hm.ready.touch hp hlt ho) (fun z hz => ?_) tail
  exact TP.ite (fun _ => TP.change (removeNode_noJump _) fun _ _ => TP.pure) fun hf => absurd rfl hf

theorem setText_tp {n : Nat} (hn : n ≠ 0) (hlt : n < d.nodes.length) (t : Str) : TP CanPrint (setTextContentC n t) d := by
  intro k x' e
  obtain ⟨d1, e1, h1⟩ := setText_left h hn hlt e
  obtain ⟨d2, e2, i2, _⟩ := dropKids h hn hlt
  rw [e1] at e2
  cases e2
  rcases h1 with h1 | ⟨y, hy, h1⟩
  · exact CanPrint.ext (linked_prints i2) h1
  · have := setText_spec h h0 hn hlt t
    rw [hy] at this
    exact CanPrint.but (linked_prints this.1) h1

end Ops

/-! ## Fragments -/

section Html
variable {d m : Dom} {ch c : Nat → List Nat} {F : List Nat} {p : Nat}

/-- What is known when the parse of a fragment is over. -/
theorem parsed_done (h : DomI d ch) (h0 : ch 0 = []) {junk : Nat → Out Bool} (hj : Reads junk) {html : Str} (hne : NonEmptyFrag junk html d) {k j : Nat}
    {m : Dom} (e : parseExtraC junk html k d = .done true m j) :
    ∃ r c F, parseExtra junk html d = .ok r ∧ r.ok = true ∧ r.dom = m ∧ Parsed d ch m c ∧
      (∀ q, d.nodes.length ≤ q → typeOf m q = some .text → c q = []) ∧ c 0 = d.nodes.length :: F := by
  obtain ⟨r, h1, h2⟩ := (sim_parseExtra junk html d).done_ok e
  have ho : r.ok = true := congrArg Prod.fst h2
  have hd : r.dom = m := congrArg Prod.snd h2
  obtain ⟨c, P, hleaf⟩ := (parseExtra_domI (E := EQuote html) h h0 (fun i => (Reads.post hj) i) (fun _ h => h)).elim h1
  obtain ⟨F, hF⟩ := P.head (hne r h1 ho)
  subst hd
  exact ⟨r, c, F, h1, ho, rfl, P, hleaf ho, hF⟩

theorem appendHTML_tp (h : DomI d ch) (h0 : ch 0 = []) {junk : Nat → Out Bool} (hj : Reads junk) {html : Str} (hne : NonEmptyFrag junk html d)
    (hp : p ≠ 0) (hlt : p < d.nodes.length) : TP (Touch d ch p (Behind d.nodes.length (ch p))) (appendHTMLC junk p html) d := by
  have ho := behind_refl d.nodes.length (ch p)
  unfold appendHTMLC
  refine TP.read (TP.bind ((parse_tp junk html).mono fun x hx => Touch.ext h hx hp hlt ho) fun ok m j k e => TP.ite (fun _ => TP.pure) fun hok => ?_)
  have hok : ok = true := by simpa using hok
  subst hok
  obtain ⟨r, c, F, _, _, _, P, hleaf, hF⟩ := parsed_done h h0 hj hne e
  have hN : d.nodes.length ∈ c 0 := by rw [hF]; simp
  have hltF : ∀ x ∈ c 0, p < x := fun x hx => by have := (P.mem0 hx).1; omega
  have hm := P.ready.touch hp hlt ho
  have tail : TP (Touch d ch p (Behind d.nodes.length (ch p))) (do appendUpdateReferencesC p d.nodes.length; pure d.nodes.length : CM Nat) m := TP.last (P.ready.append hF hp hlt)
  refine TP.read (TP.ite (fun hf => ?_) fun _ => tail)
  refine TP.ask hm fun la hl => TP.ask hm fun node hnode => TP.ite (fun hgt => ?_) fun _ => ?_
  · refine TP.ite (fun hty => ?_) fun _ => tail
    refine TP.ask hm fun lastNext hln => TP.merging (merges_merge _ _ _) hm (fun z hz => ?_) ?_
    · refine TP.ite (fun _ => TP.read ?_) fun hf => absurd rfl hf
      rw [P.inv.linked.getFirstChild_eq hp] at hf hln
      obtain ⟨a, l, hc⟩ : ∃ a l, c p = a :: l := by
        cases hc : c p with
        | nil => rw [hc] at hf; exact absurd hf (by simp)
        | cons a l => exact ⟨a, l, rfl⟩
      rw [hc, List.headD_cons, lastChild P.inv.linked hc] at hln
      have hmem : lastNext ∈ c p := by cases hln; exact getLastD_mem (by rw [hc]; simp)
      have hty' : typeOf m d.nodes.length = some .text := by
        obtain ⟨h1, h2⟩ := node_lt hnode
        rw [typeOf_eq h2, hty]
      obtain ⟨i2, d3, tk, tg, htk, e3, mm⟩ := merged_drop P.inv hN (hleaf _ (Nat.le_refl _)) hty' hp hmem hz
      rw [lastNew P.inv.linked hF] at hl
      cases hl
      have hFn := (P.lastNew_gt hF).mp hgt
      obtain ⟨f, F', rfl⟩ := List.exists_cons_of_ne_nil hFn
      have hnext : getNext d.nodes.length z = f := i2.linked.getNext_eq (p := 0) (by rw [hF]; simp [Adj])
      rw [hnext]
      refine TP.change (removeNode_noJump _) fun y hy => ?_
      rw [e3] at hy
      cases hy
      rw [hF, List.erase_cons_head] at mm
      exact TP.last ((P.ready.merged (Nat.le_refl _) (fun x hx => by rw [hF]; exact .tail _ hx) htk mm).append (f0 := f) (F := F') (by simp) hp hlt)
    · exact TP.ite (fun hf => absurd hf (by decide)) fun _ => tail
  · refine TP.ite (fun hty => ?_) fun _ => tail
    refine TP.ask hm fun lastNext hln => TP.merging (merges_merge _ _ _) hm (fun z hz => ?_) ?_
    · exact TP.ite (fun _ => TP.change (removeNode_noJump _) fun _ _ => TP.pure) fun hf => absurd rfl hf
    · exact TP.ite (fun hf => absurd hf (by decide)) fun _ => tail

theorem prependHTML_tp (h : DomI d ch) (h0 : ch 0 = []) {junk : Nat → Out Bool} (hj : Reads junk) {html : Str} (hne : NonEmptyFrag junk html d)
    (hp : p ≠ 0) (hlt : p < d.nodes.length) : TP (Touch d ch p (InFront d.nodes.length (ch p))) (prependHTMLC junk p html) d := by
  have ho := inFront_refl d.nodes.length (ch p)
  unfold prependHTMLC
  refine TP.read (TP.bind ((parse_tp junk html).mono fun x hx => Touch.ext h hx hp hlt ho) fun ok m j k e => TP.ite (fun _ => TP.pure) fun hok => ?_)
  have hok : ok = true := by simpa using hok
  subst hok
  obtain ⟨r, c, F, _, _, _, P, hleaf, hF⟩ := parsed_done h h0 hj hne e
  have hltF : ∀ x ∈ c 0, p < x := fun x hx => by have := (P.mem0 hx).1; omega
  have hm := P.ready.touch hp hlt ho
  have tail : TP (Touch d ch p (InFront d.nodes.length (ch p))) (do prependUpdateReferencesC p d.nodes.length; pure d.nodes.length : CM Nat) m := TP.last (P.ready.prepend hF hp hlt)
  refine TP.read (TP.ite (fun hf => ?_) fun _ => tail)
  refine TP.ask hm fun la hl => TP.ask hm fun node hnode => TP.ite (fun hgt => ?_) fun _ => ?_
  · refine TP.ite (fun hty => ?_) fun _ => tail
    refine TP.merging (merges_merge _ _ _) hm (fun z hz => ?_) ?_
    · refine TP.ite (fun _ => ?_) fun hf => absurd rfl hf
      rw [P.inv.linked.getFirstChild_eq hp] at hf hz
      obtain ⟨a, l, hc⟩ : ∃ a l, c p = a :: l := by
        cases hc : c p with
        | nil => rw [hc] at hf; exact absurd hf (by simp)
        | cons a l => exact ⟨a, l, rfl⟩
      rw [hc, List.headD_cons] at hz
      rw [lastNew P.inv.linked hF] at hl
      have hla : la = (d.nodes.length :: F).getLastD 0 := by cases hl; rfl
      have hmem : la ∈ c 0 := by rw [hla, hF]; exact getLastD_mem (by simp)
      have hty' : typeOf m la = some .text := by
        obtain ⟨h1, h2⟩ := node_lt hnode
        rw [typeOf_eq h2, hty]
      obtain ⟨i2, d3, tk, tg, htk, e3, mm⟩ := merged_drop P.inv hmem (hleaf _ (P.mem0 hmem).1) hty' hp (k := a) (by rw [hc]; simp) hz
      have hFn := (P.lastNew_gt hF).mp (hla ▸ hgt)
      refine TP.change (removeNode_noJump _) fun y hy => ?_
      rw [e3] at hy
      cases hy
      have hera : (c 0).erase la = d.nodes.length :: F.dropLast := by
        have := P.inv.linked.nodup 0
        rw [hF] at this ⊢
        rw [hla, erase_last this (by simp)]
        obtain ⟨f, F', rfl⟩ := List.exists_cons_of_ne_nil hFn; simp
      rw [hera] at mm
      refine TP.last ((P.ready.merged (P.mem0 hmem).1 (fun x hx => ?_) htk mm).prepend (f0 := d.nodes.length) (F := F.dropLast) (by simp) hp hlt)
      rw [hF]
      rcases List.mem_cons.mp hx with rfl | hx
      · exact .head _
      · exact .tail _ (List.dropLast_subset _ hx)
    · exact TP.ite (fun hf => absurd hf (by decide)) fun _ => tail
  · refine TP.ask hm fun node _ => TP.ite (fun hty => ?_) fun _ => tail
    refine TP.merging (merges_merge _ _ _) hm (fun z hz => ?_) ?_
    · exact TP.ite (fun _ => TP.change (removeNode_noJump _) fun _ _ => TP.pure) fun hf => absurd rfl hf
    · exact TP.ite (fun hf => absurd hf (by decide)) fun _ => tail

/-! ## Replacing -/

theorem mergeFirst_tp {x : Dom} {Q : Dom → Prop} (hx : Q x) (old n : Nat) : TP Q (replaceMergeFirstC old n) x := by
  unfold replaceMergeFirstC
  refine TP.ask hx fun nd _ => TP.ite (fun _ => ?_) fun _ => TP.pure
  refine TP.merging (merges_prev _ _) hx (fun z _ => ?_) ?_
  · exact TP.ite (fun _ => TP.read (TP.change (removeNode_noJump _) fun _ _ => TP.pure)) fun hf => absurd rfl hf
  · exact TP.ite (fun hf => absurd hf (by decide)) fun _ => TP.pure

theorem mergeLast_tp {x : Dom} {Q : Dom → Prop} (hx : Q x) (old n : Nat) : TP Q (replaceMergeLastC old n) x := by
  unfold replaceMergeLastC
  refine TP.ask hx fun nd _ => TP.ite (fun _ => ?_) fun _ => TP.pure
  refine TP.merging (merges_next _ _) hx (fun z _ => ?_) ?_
  · refine TP.ite (fun _ => ?_) fun hf => absurd rfl hf
    exact fun k x' e => absurd e (by
      unfold CM.change
      intro h
      cases e : removeNode n z with
      | ok a => rw [e] at h; cases h
      | longjmp => exact removeNode_noJump n z e
      | ub w => rw [e] at h; cases h
      | hang => rw [e] at h; cases h)
  · exact TP.ite (fun hf => absurd hf (by decide)) fun _ => TP.pure

/-- The precondition of a replacement excludes that all new nodes are merged away. -/
theorem safe_some {junk : Nat → Out Bool} {html : Str} {old : Nat} (h : DomI d ch) (hs : ReplaceSafe junk old html d) {r : ParseRes}
    (hr : parseExtra junk html d = .ok r) (ho : r.ok = true) (P : Parsed d ch r.dom c) (hF : c 0 = d.nodes.length :: F) {l₁ l₂ : List Nat}
    (he : ch p = l₁ ++ old :: l₂) (he1 : c p = l₁ ++ old :: l₂) (hFn : F ≠ []) (d2 d3 : Dom)
    (fs : FirstStep r.dom c (l₁.getLastD 0) d.nodes.length F F d2) : ¬LastStep d2 (upd c 0 F) (l₂.headD 0) F [] d3 := by
  obtain ⟨hpv, hpl⟩ := prev_of h he
  obtain ⟨hnx, hnl⟩ := next_of h he
  obtain ⟨s1, s2⟩ := hs r hr ho
  rw [P.fragTop hF, hpv, hnx] at s1 s2
  intro ls
  rcases ls with ⟨tk, tg, e1, e2, e3, m⟩ | ⟨_, e3, _⟩
  · obtain ⟨b, hb⟩ : ∃ b, F = [b] := by
      cases F with
      | nil => exact absurd rfl hFn
      | cons b F =>
        cases F with
        | nil => exact ⟨b, rfl⟩
        | cons c F => simp at e3
    subst hb
    have hbr := P.mem0 (c := b) (by rw [hF]; simp)
    have hbN := P.later hF (c := b) (by simp)
    rcases fs with ⟨tp, tn, f1, f2, _, m1⟩ | ⟨_, f3, _⟩
    · have e1' : textOf r.dom (l₂.headD 0) = some tk := by
        rw [← e1]
        refine (m1.others _ ?_ (by omega)).text.symm
        intro e
        have hnd := P.inv.linked.nodup p
        rw [he1, List.nodup_append, List.nodup_cons] at hnd
        cases l₂ with
        | nil =>
          rw [List.headD_nil] at e1
          rw [m1.inv.text_zero] at e1; cases e1
        | cons x l =>
          rcases List.eq_nil_or_concat' l₁ with rfl | ⟨ms, a, rfl⟩
          · simp at e
            have := P.inv.linked.range p x (by rw [he1]; simp)
            omega
          · simp at e
            exact hnd.2.2 a (by simp) x (by simp) e.symm
      have e2' : textOf r.dom b = some tg := by
        rw [← e2]
        refine (m1.others _ ?_ ?_).text.symm
        · omega
        · omega
      rcases s2 _ _ rfl with h | h | h | h
      · rw [h] at f2; cases f2
      · rw [h] at e2'; cases e2'
      · rw [← P.sib hpl, f1] at h; cases h
      · rw [← P.sib hnl, e1'] at h; cases h
    · simp at f3
  · exact absurd e3.symm hFn

theorem replaceHTML_tp (h : DomI d ch) (h0 : ch 0 = []) {junk : Nat → Out Bool} (hj : Reads junk) {html : Str} {old : Nat} {p : Nat} {l₁ l₂ : List Nat}
    (hp0 : p ≠ 0) (he : ch p = l₁ ++ old :: l₂) (hne : NonEmptyFrag junk html d) (hs : ReplaceSafe junk old html d) :
    TP (Touch d ch p (CutOff d.nodes.length (ch p) l₁)) (replaceWithHTMLC junk old html) d := by
  have hp := hp0
  have ho := cutOff_refl d.nodes.length (ch p) l₁
  have hnr := h.linked.range p old (by rw [he]; simp)
  have hlt : p < d.nodes.length := by omega
  unfold replaceWithHTMLC
  refine TP.read (TP.bind ((parse_tp junk html).mono fun x hx => Touch.ext h hx hp hlt ho) fun ok m j k e => TP.ite (fun _ => TP.pure) fun hok => ?_)
  have hok : ok = true := by simpa using hok
  subst hok
  obtain ⟨r, c, F, hr, hro, hrm, P, hleaf, hF⟩ := parsed_done h h0 hj hne e
  subst hrm
  have he1 : c p = l₁ ++ old :: l₂ := by rw [P.at hp0 (by omega)]; exact he
  have hltF : ∀ x ∈ c 0, p < x := fun x hx => by have := (P.mem0 hx).1; omega
  have hm := P.ready.touch hp hlt ho
  refine TP.ask hm fun la hl => TP.read (TP.ite (fun hgt => ?_) fun _ => ?_)
  · rw [lastNew P.inv.linked hF] at hl
    have hla : la = (d.nodes.length :: F).getLastD 0 := by cases hl; rfl
    have hFn := (P.lastNew_gt hF).mp (hla ▸ hgt)
    obtain ⟨L, d2, e2, fs⟩ := replaceMergeFirst_spec P.inv hF hp0 he1 (hleaf _ (Nat.le_refl _)) hFn
    have i2 := fs.inv P.inv hF
    have r2 := P.ready.first hF (Nat.le_refl _) fs
    have hLF : L = F ∨ L = d.nodes.length :: F := by
      rcases fs with ⟨_, _, _, _, h, _⟩ | ⟨_, h, _⟩
      · exact Or.inl h
      · exact Or.inr h
    have hLn : L ≠ [] := by rcases hLF with rfl | rfl <;> simp [hFn]
    have hlast : L.getLastD 0 = la := by
      rw [hla]
      rcases hLF with rfl | rfl
      · obtain ⟨f, F', rfl⟩ := List.exists_cons_of_ne_nil hFn
        simp [List.getLastD_cons]
      · rfl
    have hlastge : la ∈ c 0 := by
      rw [hla, hF]; exact getLastD_mem (by simp)
    have hsame2 : typeOf d2 la = typeOf r.dom la := by
      rcases fs with ⟨tk, _, htk, _, _, m⟩ | ⟨_, _, rfl⟩
      · refine (m.others _ ?_ (by omega)).type
        rcases List.eq_nil_or_concat' l₁ with rfl | ⟨ms, a, rfl⟩
        · rw [List.getLastD_nil]; omega
        · intro e
          have h1 : a ∈ c p := by rw [he1]; simp
          have h2 : (ms ++ [a]).getLastD 0 = a := by simp
          rw [h2] at e
          exact hp0 (P.inv.linked.uniq p 0 a h1 (e ▸ hlastge))
      · rfl
    obtain ⟨L', d3, e3, ls⟩ := replaceMergeLast_spec i2 (L := L) (old := old) (by simp) hLn hp0
      (by rw [upd_ne hp0]; exact he1) (by
        intro ht
        rw [hlast] at ht ⊢
        rw [upd_ne (by omega)]
        exact hleaf _ (by omega) (by rw [← hsame2]; exact ht))
    rw [hlast] at e3
    have r3 := r2.last (upd_same _ _ _) hLn ls
    rw [upd_upd_zero] at r3
    have hL' : L' = L ∨ L' = L.dropLast := by
      rcases ls with ⟨_, _, _, _, h, _⟩ | ⟨_, h, _⟩
      · exact Or.inr h
      · exact Or.inl h
    have hL'n : L' ≠ [] := by
      rintro rfl
      rcases hLF with rfl | rfl
      · exact safe_some h hs hr hro P hF he he1 hFn d2 d3 fs ls
      · rcases hL' with h | h
        · simp at h
        · obtain ⟨f, F', rfl⟩ := List.exists_cons_of_ne_nil hFn
          simp at h
    have hhead : L.headD 0 = L'.headD 0 := by
      rcases hL' with rfl | rfl
      · rfl
      · cases L with
        | nil => rfl
        | cons a l =>
          cases l with
          | nil => simp at hL'n
          | cons b l => simp
    have hsub : ∀ x ∈ L', x ∈ c 0 := by
      intro x hx
      have h1 : x ∈ L := by
        rcases hL' with rfl | rfl
        · exact hx
        · exact List.dropLast_subset _ hx
      rw [hF]
      rcases hLF with rfl | rfl
      · exact List.mem_cons_of_mem _ h1
      · exact h1
    obtain ⟨a, l, hal⟩ := List.exists_cons_of_ne_nil hL'n
    have ha : L.headD 0 = a := by rw [hhead, hal]; rfl
    refine TP.bind (mergeFirst_tp hm old _) fun n y j k e => ?_
    obtain ⟨b, g1, g2⟩ := (sim_replaceMergeFirst old _ _).done_ok e
    obtain rfl : b = (n, y) := g2
    rw [e2] at g1
    cases g1
    refine TP.bind (mergeLast_tp (r2.touch hp hlt ho) old _) fun _ y j k e => ?_
    obtain ⟨b, g1, g2⟩ := (sim_replaceMergeLast old _ _).done_ok e
    rw [e3] at g1
    cases g1
    cases g2
    rw [ha]
    exact TP.last (r3.replace (f0 := a) (F := l) (by simp [hal]) hp hlt he)
  · refine TP.merging (merges_both _ _) hm (fun z _ => ?_) ?_
    · refine TP.ite (fun _ => ?_) fun hf => absurd rfl hf
      exact TP.change (removeNode_noJump _) fun _ _ => TP.change (removeNode_noJump _) fun _ _ =>
        TP.askNo (replaceReturn_noJump _ _) fun _ _ => TP.pure
    · refine TP.ite (fun hf => absurd hf (by decide)) fun _ => TP.last (P.ready.replace hF hp0 hlt he)

end Html
end Flo.Crash
