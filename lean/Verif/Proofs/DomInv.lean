import Verif.Proofs.Replace
import Verif.Proofs.CreateDom
import Verif.Spec.Edit
/-!
# The invariant of reachable DOMs and the building blocks of the edits
-/
namespace Flo
open Spec

/-- The union of a node holds the member its type announces. -/
structure NodeGood (reg : List (Str × Bool)) (nd : Node) : Prop where
  text : nd.type = .text → ∃ s, nd.payload = .text s
  doc : nd.type = .document → ∃ t, nd.payload = .tag t ∧ t ≠ 0 ∧ t < reg.length

/-- Text nodes and elements are what child lists contain. -/
def IsKid (d : Dom) (c : Nat) : Prop := typeOf d c = some .text ∨ typeOf d c = some .document

structure DomI (d : Dom) (ch : Nat → List Nat) : Prop where
  linked : LinkedD d ch
  names : NamesOK d
  fresh : ∀ m, d.nodes.length ≤ m → pairs d m = [] ∧ bools d m = []
  cap : d.nodes.length ≤ 65535
  zero : typeOf d 0 = some .error
  rootN : d.nodes[1]? = some ⟨.root, .tag 0⟩
  good : ∀ (i : Nat) (nd : Node), d.nodes[i]? = some nd → NodeGood d.tagReg nd
  kind : ∀ p c, c ∈ ch p → IsKid d c

theorem DomI.root {d : Dom} {ch : Nat → List Nat} (h : DomI d ch) : typeOf d 1 = some .root := by
  simp [typeOf, h.rootN]

theorem Spec.SameNode.refl (d : Dom) (m : Nat) : SameNode d d m := ⟨rfl, rfl, rfl, rfl, rfl⟩

theorem Spec.SameNode.trans {a b c : Dom} {m : Nat} (h : SameNode a b m) (h' : SameNode b c m) : SameNode a c m :=
  ⟨h'.type.trans h.type, h'.text.trans h.text, h'.tag.trans h.tag, h'.pairs.trans h.pairs, h'.bools.trans h.bools⟩

/-- Nodes and link tables replaced, the rest kept. -/
def Kept (d d' : Dom) : Prop := ∃ ns fc pc nn, d' = { d with nodes := ns, fc := fc, pc := pc, nn := nn }

theorem LinksOnly.kept {d d' : Dom} (h : LinksOnly d d') : Kept d d' := by
  obtain ⟨fc, pc, nn, rfl⟩ := h.eq; exact ⟨_, _, _, _, rfl⟩

theorem Kept.same {d d' : Dom} (h : Kept d d') {m : Nat} (hn : d'.nodes[m]? = d.nodes[m]?) : SameNode d d' m := by
  obtain ⟨ns, fc, pc, nn, rfl⟩ := h
  have hn : ns[m]? = d.nodes[m]? := hn
  refine ⟨?_, ?_, ?_, rfl, rfl⟩
  · simp [typeOf, hn]
  · simp [textOf, hn]
  · simp [tagOf, hn]

theorem typeOf_some {d : Dom} {i : Nat} {t : NodeType} (h : typeOf d i = some t) :
    ∃ nd, d.nodes[i]? = some nd ∧ nd.type = t := by
  simpa [typeOf, Option.map_eq_some_iff] using h

theorem typeOf_eq {d : Dom} {i : Nat} {nd : Node} (h : d.nodes[i]? = some nd) : typeOf d i = some nd.type := by
  simp [typeOf, h]

theorem textOf_eq {d : Dom} {i : Nat} {s : Str} : textOf d i = some s ↔ d.nodes[i]? = some ⟨.text, .text s⟩ := by
  unfold textOf
  split
  · rename_i t h; rw [h]; simp
  · rename_i h
    constructor
    · intro h'; cases h'
    · intro h'; exact absurd h' (h s)

/-- A change of nodes and links that keeps the invariant. -/
theorem DomI.update {d d' : Dom} {ch ch' : Nat → List Nat} (h : DomI d ch) (hk : Kept d d')
    (hl : LinkedD d' ch') (hlen : d'.nodes.length = d.nodes.length)
    (hn : ∀ (i : Nat) (nd : Node), d'.nodes[i]? = some nd → d.nodes[i]? = some nd ∨ (2 ≤ i ∧ NodeGood d.tagReg nd))
    (hkind : ∀ p c, c ∈ ch' p → IsKid d' c) : DomI d' ch' := by
  obtain ⟨ns, fc, pc, nn, rfl⟩ := hk
  have hty : ∀ i t, i < 2 → typeOf d i = some t →
      typeOf { d with nodes := ns, fc := fc, pc := pc, nn := nn } i = some t := by
    intro i t hi ht
    have h2 := h.linked.two
    have hlt : i < ns.length := by
      have : ns.length = d.nodes.length := hlen
      omega
    rcases hn i ns[i] (List.getElem?_eq_getElem hlt) with e | ⟨e, _⟩
    · unfold typeOf at ht ⊢
      rw [e] at ht
      show (ns[i]?).map _ = _
      rw [List.getElem?_eq_getElem hlt]; exact ht
    · omega
  refine ⟨hl, { h.names with }, ?_, ?_, hty 0 _ (by omega) h.zero, ?_, ?_, hkind⟩
  · intro m hm
    exact h.fresh m (by rw [← hlen]; exact hm)
  · rw [hlen]; exact h.cap
  · have h2 := h.linked.two
    have hlt : 1 < ns.length := by
      have : ns.length = d.nodes.length := hlen
      omega
    rcases hn 1 ns[1] (List.getElem?_eq_getElem hlt) with e | ⟨e, _⟩
    · show ns[1]? = _
      rw [List.getElem?_eq_getElem hlt, ← e]; exact h.rootN
    · omega
  · intro i nd hi
    rcases hn i nd hi with e | ⟨_, e⟩
    · exact h.good i nd e
    · exact e

/-- A change of the links only. -/
theorem DomI.links {d d' : Dom} {ch ch' : Nat → List Nat} (h : DomI d ch) (hk : LinksOnly d d')
    (hl : LinkedD d' ch') (hkind : ∀ p c, c ∈ ch' p → ∃ q, c ∈ ch q) :
    DomI d' ch' ∧ (∀ m, SameNode d d' m) ∧ d'.nodes = d.nodes := by
  have hs : ∀ m, SameNode d d' m := fun m => hk.kept.same (by rw [hk.nodes])
  refine ⟨h.update hk.kept hl (by rw [hk.nodes]) (fun i nd hi => by rw [hk.nodes] at hi; exact Or.inl hi) ?_, hs,
    hk.nodes⟩
  intro p c hc
  obtain ⟨q, hq⟩ := hkind p c hc
  have := h.kind q c hq
  unfold IsKid at this ⊢
  rw [(hs c).type]; exact this

theorem DomI.forget {d : Dom} {ch : Nat → List Nat} (h : DomI d ch) : DomI d (upd ch 0 []) :=
  { h with
    linked := h.linked.forget.1
    kind := fun p c hc => by
      by_cases hp : p = 0
      · subst hp; simp at hc
      · rw [upd_ne hp] at hc; exact h.kind p c hc }

theorem DomI.getType {d : Dom} {ch : Nat → List Nat} (h : DomI d ch) {p c : Nat} (hc : c ∈ ch p) :
    ∃ nd, d.nodes[c]? = some nd ∧ (nd.type = .text ∨ nd.type = .document) := by
  rcases h.kind p c hc with hk | hk
  · obtain ⟨nd, h1, h2⟩ := typeOf_some hk; exact ⟨nd, h1, Or.inl h2⟩
  · obtain ⟨nd, h1, h2⟩ := typeOf_some hk; exact ⟨nd, h1, Or.inr h2⟩

theorem DomI.text {d : Dom} {ch : Nat → List Nat} (h : DomI d ch) {c : Nat} (hc : typeOf d c = some .text) :
    ∃ s, textOf d c = some s := by
  obtain ⟨nd, h1, h2⟩ := typeOf_some hc
  obtain ⟨s, hs⟩ := (h.good c nd h1).text h2
  exact ⟨s, by rw [textOf_eq, h1]; cases nd; simp_all⟩

/-! ## Creating one node -/

section
variable {d : Dom} {ch : Nat → List Nat}

theorem Grew.sameNode {d' : Dom} {nd : Node} (h : DomI d ch) (g : Grew d d' nd) {m : Nat} (hm : m ≠ d.nodes.length) :
    SameNode d d' m := by
  have hn : d'.nodes[m]? = d.nodes[m]? := by
    rw [g.nodes]
    by_cases hlt : m < d.nodes.length
    · rw [List.getElem?_append_left hlt]
    · rw [List.getElem?_eq_none (by simp; omega), List.getElem?_eq_none (by omega)]
  refine ⟨by simp [typeOf, hn], by simp [textOf, hn], ?_, g.pairs m hm, g.bools m hm⟩
  unfold tagOf
  rw [hn]
  split
  · rename_i t ht
    obtain ⟨t', e1, _, e2⟩ := (h.good m _ ht).doc rfl
    cases e1
    obtain ⟨x, hx⟩ := g.tagReg
    rw [← hx, List.getElem?_append_left e2]
  · rfl

/-- A new node floats in slot 0. -/
theorem DomI.grow {d' : Dom} {nd : Node} (h : DomI d ch) (g : Grew d d' nd) (hg : NodeGood d'.tagReg nd)
    (hk : nd.type = .text ∨ nd.type = .document) (h0 : ch 0 = []) :
    DomI d' (upd ch 0 [d.nodes.length]) := by
  have hN : d'.nodes.length = d.nodes.length + 1 := by rw [g.nodes]; simp
  have hroom := g.room
  have h2 := h.linked.two
  have hnew : d'.nodes[d.nodes.length]? = some nd := by rw [g.nodes]; simp
  refine ⟨?_, g.names, ?_, by omega, ?_, ?_, ?_, ?_⟩
  · have hL : Linked d'.nodes.length d'.fc d'.pc d'.nn ch := by
      rw [g.fc, g.pc, g.nn]; exact h.linked.mono (by omega)
    have hF : Loose d'.nodes.length d'.pc d'.nn ch [d.nodes.length] := by
      rw [hN, g.pc, g.nn]; exact h.linked.fresh
    have := hL.float hF
    exact this
  · intro m hm
    have hm' : m ≠ d.nodes.length := by omega
    rw [g.pairs m hm', g.bools m hm']
    exact h.fresh m (by omega)
  · rw [(g.sameNode h (m := 0) (by omega)).type]; exact h.zero
  · rw [g.nodes, List.getElem?_append_left (by omega)]; exact h.rootN
  · intro i nd' hi
    by_cases hlt : i < d.nodes.length
    · rw [g.nodes, List.getElem?_append_left hlt] at hi
      have := h.good i nd' hi
      refine ⟨this.text, fun e => ?_⟩
      obtain ⟨t, e1, e2⟩ := this.doc e
      exact ⟨t, e1, by have := g.tagReg.length_le; omega⟩
    · have hi' := lt_of_some hi
      have : i = d.nodes.length := by omega
      subst this
      rw [hnew] at hi; cases hi; exact hg
  · intro p c hc
    by_cases hp : p = 0
    · subst hp
      rw [upd_same] at hc
      simp at hc; subst hc
      unfold IsKid
      rw [typeOf_eq hnew]
      simpa using hk
    · rw [upd_ne hp] at hc
      have hr := h.linked.range p c hc
      have := h.kind p c hc
      unfold IsKid at this ⊢
      rw [(g.sameNode h (m := c) (by omega)).type]; exact this

end

/-- The result of creating a single floating node. -/
structure Made (d : Dom) (ch : Nat → List Nat) (id : Nat) (d' : Dom) : Prop where
  id : id = d.nodes.length
  inv : DomI d' (upd ch 0 [d.nodes.length])
  len : d'.nodes.length = d.nodes.length + 1
  others : ∀ m, m ≠ d.nodes.length → SameNode d d' m

section
variable {d : Dom} {ch : Nat → List Nat}

theorem parseTextElement_post (text : Str) (d : Dom) : Post NoUB (fun _ => True) (parseTextElement text d) := by
  unfold parseTextElement
  refine (createNode_post .text d).bind (fun r hr _ => ?_)
  obtain ⟨id, d'⟩ := r
  obtain ⟨e1, e2, e3⟩ := createNode_eq hr
  subst e1 e3
  simp [Dom.node]

theorem mkText (h : DomI d ch) (h0 : ch 0 = []) (text : Str) :
    Post NoUB (fun r => Made d ch r.1 r.2 ∧ textOf r.2 d.nodes.length = some text ∧
      pairs r.2 d.nodes.length = [] ∧ bools r.2 d.nodes.length = []) (parseTextElement text d) := by
  refine (parseTextElement_post text d).eqn.mono ?_
  rintro ⟨id, d'⟩ ⟨hr, _⟩
  obtain ⟨e1, g, e2, e3, _⟩ := parseTextElement_spec h.names hr
  subst e1
  have hf := h.fresh d.nodes.length (Nat.le_refl _)
  refine ⟨⟨rfl, h.grow g ⟨fun _ => ⟨text, rfl⟩, by simp⟩ (Or.inl rfl) h0, by simp [g.nodes],
    fun m hm => g.sameNode h hm⟩, ?_, e2.trans hf.1, e3.trans hf.2⟩
  rw [textOf_eq, g.nodes]; simp

theorem addBools_eq (n : Nat) : ∀ (bs : List Str) (d : Dom), addBools n bs d = buildAttrs n (bs.map .bool) d := by
  intro bs
  induction bs with
  | nil => intro d; rfl
  | cons b bs ih =>
    intro d
    simp only [addBools, List.map_cons, buildAttrs, buildAttr]
    congr 1; funext d'; exact ih d'

theorem addProps_eq (n : Nat) : ∀ (ps : List (Str × Str)) (d : Dom),
    addProps n ps d = buildAttrs n (ps.map (fun p => .pair p.1 p.2)) d := by
  intro bs
  induction bs with
  | nil => intro d; rfl
  | cons b bs ih =>
    intro d
    obtain ⟨k, v⟩ := b
    simp only [addProps, List.map_cons, buildAttrs, buildAttr]
    congr 1; funext d'; exact ih d'

theorem buildAttrs_post (n : Nat) : ∀ (as : List Attr) (d : Dom), Post NoUB (fun _ => True) (buildAttrs n as d) := by
  intro as
  induction as with
  | nil => intro d; trivial
  | cons a as ih =>
    intro d
    unfold buildAttrs
    refine Post.bindP (P := fun _ => True) ?_ (fun d' _ => ih d')
    cases a with
    | bool b => exact addBoolProperty_post n b d
    | pair k v => exact addProperty_post n k v d

theorem attrBools_bools (bs : List Str) : attrBools (bs.map .bool) = bs ∧ attrPairs (bs.map .bool) = [] := by
  induction bs with
  | nil => exact ⟨rfl, rfl⟩
  | cons b bs ih => exact ⟨by simp [attrBools, ih.1], by simp [attrPairs, ih.2]⟩

theorem attrPairs_pairs (ps : List (Str × Str)) :
    attrBools (ps.map (fun p => .pair p.1 p.2)) = [] ∧ attrPairs (ps.map (fun p => .pair p.1 p.2)) = ps := by
  induction ps with
  | nil => exact ⟨rfl, rfl⟩
  | cons b bs ih => exact ⟨by simp [attrBools, ih.1], by simp [attrPairs, ih.2]⟩

theorem mkDoc (h : DomI d ch) (h0 : ch 0 = []) (doc : DocNode) :
    Post NoUB (fun r => Made d ch r.1 r.2 ∧ tagOf r.2 d.nodes.length = some doc.tag ∧
      pairs r.2 d.nodes.length = doc.props ∧ bools r.2 d.nodes.length = doc.boolProps)
      (parseDocumentElement doc d) := by
  unfold parseDocumentElement
  refine (createNode_post .document d).bind (fun r hr _ => ?_)
  obtain ⟨id, d1⟩ := r
  obtain ⟨e1, nd, ety, g1, p1, b1, t1⟩ := createNode_spec h.names hr
  subst e1
  dsimp only
  have hlt : d.nodes.length < d1.nodes.length := by rw [g1.nodes]; simp
  refine (setTag_post (tag := doc.tag) (can := doc.isPaired) hlt).bind (fun d2 hr2 _ => ?_)
  obtain ⟨t, nd', s1, s2, s3, s4, s5, s6, s7, s8, s9, s10, s11⟩ := setTag_spec g1.names hr2
  rw [addBools_eq]
  refine (buildAttrs_post _ _ _).bind (fun d3 hr3 _ => ?_)
  obtain ⟨a1, a2, a3, a4⟩ := buildAttrs_spec s9 hr3
  rw [addProps_eq]
  refine (buildAttrs_post _ _ _).bind (fun d4 hr4 _ => ?_)
  obtain ⟨c1, c2, c3, c4⟩ := buildAttrs_spec a2 hr4
  rw [(attrBools_bools _).1] at a4
  rw [(attrBools_bools _).2] at a3
  rw [(attrPairs_pairs _).1] at c4
  rw [(attrPairs_pairs _).2] at c3
  have hnd : nd' = nd := by
    rw [g1.nodes] at s1
    simpa using s1.symm
  subst hnd
  have hnodes : d4.nodes = d.nodes ++ [⟨.document, .tag t⟩] := by
    rw [c1.nodes, a1.nodes, s3, g1.nodes, ety]; simp
  have hreg : d4.tagReg = d2.tagReg := by rw [c1.tagReg, a1.tagReg]
  have g : Grew d d4 ⟨.document, .tag t⟩ := by
    refine ⟨hnodes, ?_, ?_, ?_, ?_, g1.room, c2, ?_, ?_⟩
    · rw [c1.fc, a1.fc, s5, g1.fc]
    · rw [c1.pc, a1.pc, s6, g1.pc]
    · rw [c1.nn, a1.nn, s7, g1.nn]
    · rw [hreg]; exact g1.tagReg.trans s8
    · intro m hm; rw [c3, if_neg hm, a3, if_neg hm, s10, g1.pairs m hm]
    · intro m hm; rw [c4, if_neg hm, a4, if_neg hm, s11, g1.bools m hm]
  have htlt : t < d4.tagReg.length := by
    rw [hreg]
    simp only [Option.map_eq_some_iff] at s4
    obtain ⟨x, hx, _⟩ := s4
    exact lt_of_some hx
  have hf := h.fresh d.nodes.length (Nat.le_refl _)
  refine ⟨⟨rfl, h.grow g ⟨by simp, fun _ => ⟨t, rfl, s2, htlt⟩⟩ (Or.inr rfl) h0, by simp [hnodes],
    fun m hm => g.sameNode h hm⟩, ?_, ?_, ?_⟩
  · simp only [tagOf, hnodes]
    simp
    rw [hreg]
    simpa using s4
  · rw [c3, if_pos rfl, a3, if_pos rfl, s10, p1, hf.1]; simp
  · rw [c4, if_pos rfl, a4, if_pos rfl, s11, b1, hf.2]; simp

/-! ## Linking floating nodes -/

theorem upd_mem {p c q : Nat} {L : List Nat} (h : c ∈ upd (upd ch 0 []) p L q) : c ∈ L ∨ c ∈ ch q := by
  unfold upd at h
  split at h
  · exact Or.inl h
  · split at h
    · simp at h
    · exact Or.inr h

theorem upd_mem' {p c q : Nat} {L : List Nat} (h : c ∈ upd (upd ch 0 []) p L q) : c ∈ L ∨ (q ≠ p ∧ c ∈ ch q) := by
  unfold upd at h
  split at h
  · exact Or.inl h
  · split at h
    · simp at h
    · exact Or.inr ⟨‹_›, h⟩

theorem linkAppend (h : DomI d ch) {p f0 : Nat} {F : List Nat} (hF : ch 0 = f0 :: F) (hp : p ≠ 0)
    (hlt : ∀ c ∈ ch 0, p < c) :
    ∃ d', appendUpdateReferences p f0 d = .ok d' ∧ DomI d' (upd (upd ch 0 []) p (ch p ++ f0 :: F)) ∧
      (∀ m, SameNode d d' m) ∧ d'.nodes = d.nodes := by
  obtain ⟨d', h1, h2, h3⟩ := appendUpdate_spec h.linked hF hp hlt
  refine ⟨d', h1, h.links h2 h3 ?_⟩
  intro q c hc
  rcases upd_mem hc with hc | hc
  · rcases List.mem_append.mp hc with hc | hc
    · exact ⟨p, hc⟩
    · exact ⟨0, by rw [hF]; exact hc⟩
  · exact ⟨q, hc⟩

theorem linkPrepend (h : DomI d ch) {p f0 : Nat} {F : List Nat} (hF : ch 0 = f0 :: F) (hp : p ≠ 0)
    (hlt : ∀ c ∈ ch 0, p < c) :
    ∃ d', prependUpdateReferences p f0 d = .ok d' ∧ DomI d' (upd (upd ch 0 []) p (f0 :: F ++ ch p)) ∧
      (∀ m, SameNode d d' m) ∧ d'.nodes = d.nodes := by
  obtain ⟨d', h1, h2, h3⟩ := prependUpdate_spec h.linked hF hp hlt
  refine ⟨d', h1, h.links h2 h3 ?_⟩
  intro q c hc
  rcases upd_mem hc with hc | hc
  · rcases List.mem_append.mp hc with hc | hc
    · exact ⟨0, by rw [hF]; exact hc⟩
    · exact ⟨p, hc⟩
  · exact ⟨q, hc⟩

theorem linkReplaceK (h : DomI d ch) {p old f0 : Nat} {F : List Nat} (hF : ch 0 = f0 :: F) (hp : p ≠ 0)
    {l₁ l₂ : List Nat} (he : ch p = l₁ ++ old :: l₂) (hlt : ∀ c ∈ ch 0, p < c) :
    ∃ d', replaceUpdateReferences old f0 d = .ok d' ∧
      DomI d' (upd (upd ch 0 []) p (l₁ ++ (f0 :: F ++ l₂))) ∧
      (∀ m, m ≠ old → SameNode d d' m) ∧ typeOf d' old = some .removed ∧ d'.nodes.length = d.nodes.length ∧
      Kept d d' ∧ ∃ nd, d.nodes[old]? = some nd ∧ d'.nodes[old]? = some { nd with type := .removed } := by
  have hold : old ∈ ch p := by rw [he]; simp
  have hr := h.linked.range p old hold
  obtain ⟨nd, hnd, _⟩ := h.getType hold
  obtain ⟨d', h1, ⟨fc, pc, nn, e⟩, h3⟩ := replaceUpdate_spec h.linked hF hp he hlt hnd
  have hk : Kept d d' := ⟨_, _, _, _, e⟩
  have hnodes : d'.nodes = d.nodes.set old { nd with type := .removed } := by rw [e]
  have hs : ∀ m, m ≠ old → SameNode d d' m := fun m hm => hk.same (by
    rw [hnodes, List.getElem?_set_ne (Ne.symm hm)])
  have hgone : d'.nodes[old]? = some { nd with type := .removed } := by
    rw [hnodes]; simp [hr.2.2]
  refine ⟨d', h1, h.update hk h3 (by rw [hnodes]; simp) ?_ ?_, hs, by rw [typeOf_eq hgone], by rw [hnodes]; simp, hk, nd, hnd, hgone⟩
  · intro i nd' hi
    by_cases hio : i = old
    · subst hio
      rw [hgone] at hi; cases hi
      exact Or.inr ⟨by omega, ⟨by simp, by simp⟩⟩
    · rw [hnodes, List.getElem?_set_ne (Ne.symm hio)] at hi
      exact Or.inl hi
  · intro q c hc
    have hc' : c ≠ old ∧ ∃ r, c ∈ ch r := by
      rcases upd_mem' hc with hc | hc
      · have hnd := h.linked.nodup p
        rw [he, List.nodup_append, List.nodup_cons] at hnd
        simp only [List.mem_append] at hc
        rcases hc with hc | hc | hc
        · exact ⟨fun e => hnd.2.2 c hc old (by simp) e, p, by rw [he]; simp [hc]⟩
        · refine ⟨?_, 0, by rw [hF]; exact hc⟩
          rintro rfl
          have := h.linked.uniq 0 p c (by rw [hF]; exact hc) hold
          exact hp this.symm
        · exact ⟨fun e => hnd.2.1.1 (e ▸ hc), p, by rw [he]; simp [hc]⟩
      · refine ⟨?_, q, hc.2⟩
        rintro rfl
        exact hc.1 (h.linked.uniq q p c hc.2 hold)
    obtain ⟨h4, r, h5⟩ := hc'
    have := h.kind r c h5
    unfold IsKid at this ⊢
    rw [(hs c h4).type]; exact this

theorem linkReplace (h : DomI d ch) {p old f0 : Nat} {F : List Nat} (hF : ch 0 = f0 :: F) (hp : p ≠ 0)
    {l₁ l₂ : List Nat} (he : ch p = l₁ ++ old :: l₂) (hlt : ∀ c ∈ ch 0, p < c) :
    ∃ d', replaceUpdateReferences old f0 d = .ok d' ∧
      DomI d' (upd (upd ch 0 []) p (l₁ ++ (f0 :: F ++ l₂))) ∧
      (∀ m, m ≠ old → SameNode d d' m) ∧ typeOf d' old = some .removed ∧ d'.nodes.length = d.nodes.length := by
  obtain ⟨d', h1, h2, h3, h4, h5, _⟩ := linkReplaceK h hF hp he hlt
  exact ⟨d', h1, h2, h3, h4, h5⟩

/-! ## Merging text -/

theorem tryMerge_text (h : DomI d ch) {i j : Nat} {ti tj : Str} (hi2 : 2 ≤ i) (hi : textOf d i = some ti)
    (hj : textOf d j = some tj) (isAppend : Bool) :
    ∃ d', tryMerge i j isAppend d = .ok (true, d') ∧ DomI d' ch ∧
      textOf d' i = some (if isAppend then ti ++ [32] ++ tj else tj ++ [32] ++ ti) ∧
      (∀ m, m ≠ i → SameNode d d' m) ∧ typeOf d' i = some .text ∧ d'.nodes.length = d.nodes.length ∧
      pairs d' i = pairs d i ∧ bools d' i = bools d i := by
  rw [textOf_eq] at hi hj
  have hlt := lt_of_some hi
  unfold tryMerge addTextToTextNode
  simp only [Dom.node, hi, hj, Out.bind_ok, if_true, Node.getText, Dom.setNode]
  refine ⟨_, rfl, ?_⟩
  generalize hnew : (if isAppend = true then ti ++ [cSp] ++ tj else tj ++ [cSp] ++ ti) = new
  have hk : Kept d { d with nodes := d.nodes.set i ⟨.text, .text new⟩ } := ⟨_, _, _, _, rfl⟩
  have hs : ∀ m, m ≠ i → SameNode d { d with nodes := d.nodes.set i ⟨.text, .text new⟩ } m := fun m hm =>
    hk.same (by show (d.nodes.set _ _)[m]? = _; rw [List.getElem?_set_ne (Ne.symm hm)])
  have hget : ({ d with nodes := d.nodes.set i ⟨.text, .text new⟩ } : Dom).nodes[i]? = some ⟨.text, .text new⟩ := by
    show (d.nodes.set _ _)[i]? = _
    simp [hlt]
  have hty : typeOf { d with nodes := d.nodes.set i ⟨.text, .text new⟩ } i = some .text := typeOf_eq hget
  refine ⟨h.update hk (by
      show Linked (d.nodes.set i _).length _ _ _ _
      rw [List.length_set]; exact h.linked) (by simp) ?_ ?_, textOf_eq.mpr hget, hs, hty, by simp, rfl, rfl⟩
  · intro k nd hk
    by_cases hki : k = i
    · subst hki
      rw [hget] at hk; cases hk
      exact Or.inr ⟨hi2, ⟨fun _ => ⟨_, rfl⟩, by simp⟩⟩
    · left
      have hk : (d.nodes.set i _)[k]? = some nd := hk
      rw [List.getElem?_set_ne (Ne.symm hki)] at hk
      exact hk
  · intro p c hc
    by_cases hci : c = i
    · subst hci; exact Or.inl hty
    · have := h.kind p c hc
      unfold IsKid at this ⊢
      rw [(hs c hci).type]; exact this

theorem tryMerge_other {i j : Nat} {t : NodeType} (hi : typeOf d i = some t) (ht : t ≠ .text) (isAppend : Bool) :
    tryMerge i j isAppend d = .ok (false, d) := by
  obtain ⟨nd, h1, h2⟩ := typeOf_some hi
  unfold tryMerge
  simp [Dom.node, h1, h2, ht]

/-! ## Removing -/

theorem dropLeaf (h : DomI d ch) {p n : Nat} (hn : n ∈ ch p) (hl : ch n = []) :
    ∃ d', removeNode n d = .ok d' ∧ DomI d' (upd ch p ((ch p).erase n)) ∧
      (∀ m, m ≠ n → SameNode d d' m) ∧ typeOf d' n = some .removed ∧ d'.nodes.length = d.nodes.length := by
  have hr := h.linked.range p n hn
  obtain ⟨d', h1, h2, h3⟩ := removeNode_leaf h.linked hn hl
  have hs : ∀ m, m ≠ n → SameNode d d' m := fun m hm => Kept.same h2.same (h2.kept m (by simpa using hm))
  have hgone := h2.gone n (by simp) hr.2.2
  refine ⟨d', h1, h.update h2.same h3 h2.len ?_ ?_, hs, by rw [typeOf_eq hgone], h2.len⟩
  · intro i nd hi
    by_cases hin : i = n
    · subst hin; rw [hgone] at hi; cases hi
      exact Or.inr ⟨by omega, ⟨by simp, by simp⟩⟩
    · rw [h2.kept i (by simpa using hin)] at hi; exact Or.inl hi
  · intro q c hc
    have hc' : c ≠ n ∧ c ∈ ch q := by
      by_cases hq : q = p
      · subst hq
        rw [upd_same] at hc
        exact ⟨fun e => ((h.linked.nodup q).mem_erase_iff.mp hc).1 e, ((h.linked.nodup q).mem_erase_iff.mp hc).2⟩
      · rw [upd_ne hq] at hc
        exact ⟨fun e => hq (h.linked.uniq q p c hc (e ▸ hn)), hc⟩
    have := h.kind q c hc'.2
    unfold IsKid at this ⊢
    rw [(hs c hc'.1).type]; exact this

theorem dropTree_mem {n q c : Nat} (hl : LinkedD d ch) (hn : n < d.nodes.length)
    (hc : c ∈ dropTree d.nodes.length ch n q) : c ∈ ch q ∧ c ∉ pre d.nodes.length ch n := by
  unfold dropTree at hc
  split at hc
  · simp at hc
  · rename_i hq
    have := (hl.nodup q).mem_erase_iff.mp hc
    refine ⟨this.2, fun hx => ?_⟩
    have hlive := (LiveC.mem_pre hl.up hn).mpr hx
    have := hlive.parent hl.uniq this.2 this.1
    exact hq ((LiveC.mem_pre hl.up hn).mp this)

theorem dropAll (h : DomI d ch) {p n : Nat} (hn : n ∈ ch p) :
    ∃ d', removeNode n d = .ok d' ∧ DomI d' (dropTree d.nodes.length ch n) ∧
      (∀ m, m ∉ pre d.nodes.length ch n → SameNode d d' m) ∧
      (∀ m ∈ pre d.nodes.length ch n, typeOf d' m = some .removed) ∧ d'.nodes.length = d.nodes.length := by
  have hr := h.linked.range p n hn
  obtain ⟨d', h1, h2, h3⟩ := removeNode_spec h.linked hn
  have hs : ∀ m, m ∉ pre d.nodes.length ch n → SameNode d d' m := fun m hm => Kept.same h2.same (h2.kept m hm)
  have hpre : ∀ m ∈ pre d.nodes.length ch n, n ≤ m ∧ m < d.nodes.length := pre_ge h.linked.up n hr.2.2
  refine ⟨d', h1, h.update h2.same h3 h2.len ?_ ?_, hs, fun m hm => ?_, h2.len⟩
  · intro i nd hi
    by_cases hin : i ∈ pre d.nodes.length ch n
    · rw [h2.gone i hin (hpre i hin).2] at hi; cases hi
      exact Or.inr ⟨by have := hpre i hin; omega, ⟨by simp, by simp⟩⟩
    · rw [h2.kept i hin] at hi; exact Or.inl hi
  · intro q c hc
    obtain ⟨hc1, hc2⟩ := dropTree_mem h.linked hr.2.2 hc
    have := h.kind q c hc1
    unfold IsKid at this ⊢
    rw [(hs c hc2).type]; exact this
  · rw [typeOf_eq (h2.gone m hm (hpre m hm).2)]

theorem dropKids (h : DomI d ch) {n : Nat} (hn0 : n ≠ 0) (hn : n < d.nodes.length) :
    ∃ d', removeChildren n d = .ok d' ∧ DomI d' (dropBelow d.nodes.length ch n) ∧
      (∀ m, m ∉ (pre d.nodes.length ch n).tail → SameNode d d' m) ∧
      (∀ m ∈ (pre d.nodes.length ch n).tail, typeOf d' m = some .removed) ∧
      d'.nodes.length = d.nodes.length := by
  have hl := h.linked
  obtain ⟨d', h1, h2, h3⟩ := removeChildren_spec hl hn0 hn
  have hpre : ∀ m ∈ (pre d.nodes.length ch n).tail, n < m ∧ m < d.nodes.length ∧ m ∈ pre d.nodes.length ch n := by
    intro m hm
    rw [pre_eq hl.up hn, List.tail_cons, List.mem_flatMap] at hm
    obtain ⟨c, hc, hm⟩ := hm
    have hr := hl.range n c hc
    have := pre_ge hl.up c hr.2.2 m hm
    exact ⟨by omega, by omega, mem_below hl hn hc hm⟩
  have hs : ∀ m, m ∉ (pre d.nodes.length ch n).tail → SameNode d d' m := fun m hm => Kept.same h2.same (h2.kept m hm)
  refine ⟨d', h1, h.update h2.same h3 h2.len ?_ ?_, hs, fun m hm => ?_, h2.len⟩
  · intro i nd hi
    by_cases hin : i ∈ (pre d.nodes.length ch n).tail
    · rw [h2.gone i hin (hpre i hin).2.1] at hi; cases hi
      exact Or.inr ⟨by have := hpre i hin; omega, ⟨by simp, by simp⟩⟩
    · rw [h2.kept i hin] at hi; exact Or.inl hi
  · intro q c hc
    unfold dropBelow at hc
    split at hc
    · simp at hc
    · rename_i hq
      have := h.kind q c hc
      unfold IsKid at this ⊢
      rw [(hs c (fun hx => ?_)).type]
      · exact this
      · obtain ⟨a, b, hx⟩ := hpre c hx
        have hlive := (LiveC.mem_pre hl.up hn).mpr hx
        exact hq ((LiveC.mem_pre hl.up hn).mp (hlive.parent hl.uniq hc (by omega)))
  · rw [typeOf_eq (h2.gone m hm (hpre m hm).2.1)]

end

/-! ## Where DOMs come from -/

theorem BInv.domI {ext : List Nat} {base startLen : Nat} {d0 : Dom} {ch0 ch : Nat → List Nat} {d : Dom}
    (h0 : DomI d0 ch0) (hlink : LinkedD d ch) (hnames : NamesOK d) (hold : d0.nodes <+: d.nodes)
    (hreg : d0.tagReg <+: d.tagReg) (hm : Mode ext base startLen)
    (hframe : ∀ q, q ≠ base → q < d0.nodes.length → ch q = ch0 q)
    (hnew : ∀ i, d0.nodes.length ≤ i → i < d.nodes.length → ParsedNode d i)
    (horder : pre d.nodes.length ch base = base :: List.range' d0.nodes.length (d.nodes.length - d0.nodes.length))
    (hpairs : ∀ m, m < d0.nodes.length ∨ d.nodes.length ≤ m → Spec.pairs d m = Spec.pairs d0 m)
    (hbools : ∀ m, m < d0.nodes.length ∨ d.nodes.length ≤ m → Spec.bools d m = Spec.bools d0 m)
    (hcap : d0.nodes.length ≤ 65535 → d.nodes.length ≤ 65535) :
    DomI d ch ∧ ∀ m, m < d0.nodes.length → SameNode d0 d m := by
  have hb2 := hm.lt2
  have h2 := h0.linked.two
  have hle := hold.length_le
  obtain ⟨x, hx⟩ := hold
  have hnode : ∀ m, m < d0.nodes.length → d.nodes[m]? = d0.nodes[m]? := by
    intro m hm
    rw [← hx, List.getElem?_append_left hm]
  have hsame : ∀ m, m < d0.nodes.length → SameNode d0 d m := by
    intro m hm
    have hn := hnode m hm
    refine ⟨by simp [typeOf, hn], by simp [textOf, hn], ?_, hpairs m (Or.inl hm), hbools m (Or.inl hm)⟩
    unfold tagOf
    rw [hn]
    split
    · rename_i t ht
      obtain ⟨t', e1, _, e2⟩ := (h0.good m _ ht).doc rfl
      cases e1
      obtain ⟨y, hy⟩ := hreg
      rw [← hy, List.getElem?_append_left e2]
    · rfl
  have hnewty : ∀ i, d0.nodes.length ≤ i → i < d.nodes.length → IsKid d i ∧
      ∀ nd, d.nodes[i]? = some nd → NodeGood d.tagReg nd := by
    intro i h1 h2
    rcases hnew i h1 h2 with ⟨raw, e, _⟩ | ⟨name, e, _, _, _, hname, _⟩
    · rw [textOf_eq] at e
      refine ⟨Or.inl (typeOf_eq e), fun nd hnd => ?_⟩
      rw [e] at hnd; cases hnd
      exact ⟨fun _ => ⟨_, rfl⟩, by simp⟩
    · unfold tagOf at e
      split at e
      · rename_i t ht
        refine ⟨Or.inr (typeOf_eq ht), fun nd hnd => ?_⟩
        rw [ht] at hnd; cases hnd
        rw [Option.map_eq_some_iff] at e
        obtain ⟨y, hy, hy1⟩ := e
        refine ⟨by simp, fun _ => ⟨t, rfl, ?_, lt_of_some hy⟩⟩
        rintro rfl
        obtain ⟨p, hp⟩ := hnames.tag0
        rw [hp] at hy; cases hy; rw [hname] at hy1; cases hy1
      · cases e
  refine ⟨⟨hlink, hnames, ?_, hcap h0.cap, ?_, ?_, ?_, ?_⟩, hsame⟩
  · intro m hm
    rw [hpairs m (Or.inr hm), hbools m (Or.inr hm)]
    exact h0.fresh m (by omega)
  · rw [(hsame 0 (by omega)).type]; exact h0.zero
  · rw [hnode 1 (by omega)]; exact h0.rootN
  · intro i nd hi
    by_cases hlt : i < d0.nodes.length
    · rw [hnode i hlt] at hi
      have := h0.good i nd hi
      refine ⟨this.text, fun e => ?_⟩
      obtain ⟨t, e1, e2⟩ := this.doc e
      exact ⟨t, e1, by have := hreg.length_le; omega⟩
    · exact (hnewty i (by omega) (lt_of_some hi)).2 nd hi
  · intro p c hc
    have hr := hlink.range p c hc
    by_cases hlt : d0.nodes.length ≤ c
    · exact (hnewty c hlt hr.2.2).1
    · have hcbase : p ≠ base := by
        rintro rfl
        have : c ∈ pre d.nodes.length ch p := by
          rw [pre_eq hlink.up (by omega), List.mem_cons, List.mem_flatMap]
          exact Or.inr ⟨c, hc, mem_pre_self hr.2.2⟩
        rw [horder, List.mem_cons, List.mem_range'_1] at this
        omega
      rw [hframe p hcbase (by omega)] at hc
      have := h0.kind p c hc
      unfold IsKid at this ⊢
      rw [(hsame c (by omega)).type]; exact this

theorem DomI.init : DomI Dom.init (fun _ => []) where
  linked := Linked.init
  names := NamesOK.init
  fresh := by intro m _; exact ⟨rfl, rfl⟩
  cap := by decide
  zero := rfl
  rootN := rfl
  good := by
    intro i nd h
    have : nd ∈ Dom.init.nodes := List.mem_of_getElem? h
    simp [Dom.init] at this
    rcases this with rfl | rfl <;> exact ⟨by simp, by simp⟩
  kind := by simp

/-- Every parsed document satisfies the invariant. -/
theorem createDom_domI {s : Str} {d : Dom} (h : createDom s = .ok (some d)) : ∃ ch, DomI d ch ∧ ch 0 = [] := by
  obtain ⟨b, ch, rfl, hb⟩ := createDom_ok h
  have := (BInv.domI DomI.init hb.linked hb.names hb.old hb.reg hb.mode hb.frame hb.new hb.order hb.pairs hb.bools
    hb.cap).1
  refine ⟨ch, this, hb.frame 0 (by omega) (by simp [Dom.init])⟩

/-- What a fragment parse leaves: the new nodes, in document order, floating in slot 0. -/
structure Parsed (d : Dom) (ch : Nat → List Nat) (d' : Dom) (ch' : Nat → List Nat) : Prop where
  inv : DomI d' ch'
  old : ∀ m, m < d.nodes.length → SameNode d d' m
  frame : ∀ q, q ≠ 0 → q < d.nodes.length → ch' q = ch q
  order : pre d'.nodes.length ch' 0 = 0 :: List.range' d.nodes.length (d'.nodes.length - d.nodes.length)
  le : d.nodes.length ≤ d'.nodes.length
  prefixN : d.nodes <+: d'.nodes

theorem parseExtra_domI {E : Why → Prop} {junk : Nat → Out Bool} {s : Str} {d : Dom} {ch : Nat → List Nat}
    (h : DomI d ch) (h0 : ch 0 = []) (hj : ∀ i, Post E (fun _ => True) (junk i)) (hE : ∀ w, EQuote s w → E w) :
    Post E (fun r => ∃ ch', Parsed d ch r.dom ch' ∧
      (r.ok = true → ∀ p, d.nodes.length ≤ p → typeOf r.dom p = some .text → ch' p = [])) (parseExtra junk s d) := by
  have hupd : upd ch 0 [] = ch := by rw [← h0]; exact upd_self ch 0
  refine (parseExtra_spec h.linked h.names hj hE).mono ?_
  rw [hupd]
  rintro r (⟨_, b, ch', e, hb⟩ | ⟨_, ch', hb⟩)
  · rw [← e]
    have := BInv.domI h hb.linked hb.names hb.old hb.reg hb.mode hb.frame hb.new hb.order hb.pairs hb.bools hb.cap
    refine ⟨ch', ⟨this.1, this.2, hb.frame, hb.order, hb.le, hb.old⟩, fun _ p hp ht => ?_⟩
    by_contra hne
    obtain ⟨name, hname, _⟩ := hb.inner p hp hne
    obtain ⟨nd, h1, h2⟩ := typeOf_some ht
    unfold tagOf at hname
    rw [h1] at hname
    cases nd; simp at h2; subst h2; simp at hname
  · have := BInv.domI h hb.linked hb.names hb.old hb.reg .extra hb.frame hb.new hb.order hb.pairs hb.bools hb.cap
    exact ⟨ch', ⟨this.1, this.2, hb.frame, hb.order, hb.old.length_le, hb.old⟩, fun e => by simp_all⟩

/-- The first new node is the first floating one. -/
theorem Parsed.head {d d' : Dom} {ch ch' : Nat → List Nat} (h : Parsed d ch d' ch')
    (hne : d.nodes.length < d'.nodes.length) : ∃ F, ch' 0 = d.nodes.length :: F := by
  have ho := h.order
  have h2 := h.inv.linked.two
  rw [pre_eq h.inv.linked.up (by omega)] at ho
  obtain ⟨k, hk⟩ : ∃ k, d'.nodes.length - d.nodes.length = k + 1 := ⟨d'.nodes.length - d.nodes.length - 1, by omega⟩
  rw [hk, List.range'_succ] at ho
  simp only [List.cons.injEq, true_and] at ho
  cases hc : ch' 0 with
  | nil => rw [hc] at ho; simp at ho
  | cons a F =>
    have har := h.inv.linked.range 0 a (by rw [hc]; simp)
    rw [hc, List.flatMap_cons, pre_eq h.inv.linked.up har.2.2] at ho
    simp at ho
    exact ⟨F, by rw [ho.1]⟩

theorem Parsed.mem0 {d d' : Dom} {ch ch' : Nat → List Nat} (h : Parsed d ch d' ch') {c : Nat} (hc : c ∈ ch' 0) :
    d.nodes.length ≤ c ∧ c < d'.nodes.length := by
  have h2 := h.inv.linked.two
  have hr := h.inv.linked.range 0 c hc
  have : c ∈ pre d'.nodes.length ch' 0 := by
    rw [pre_eq h.inv.linked.up (by omega), List.mem_cons, List.mem_flatMap]
    exact Or.inr ⟨c, hc, mem_pre_self hr.2.2⟩
  rw [h.order, List.mem_cons, List.mem_range'_1] at this
  omega

end Flo
