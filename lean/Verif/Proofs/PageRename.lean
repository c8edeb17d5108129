import Verif.Proofs.Rename
/-!
# Pages with renamed bytes
-/
namespace Flo.Ren
open Spec

variable {π : UInt8 → UInt8}

theorem mapAll_eq (π : UInt8 → UInt8) : ∀ ks : List PTree, PTree.mapBytesAll π ks = ks.map (PTree.mapBytes π)
  | [] => rfl
  | t :: ts => by rw [PTree.mapBytesAll, mapAll_eq π ts]; rfl

mutual
theorem size_map : ∀ t : Tree, (t.mapBytes π).size = t.size
  | .text _ => rfl
  | .elem _ _ _ ts => by simp only [Tree.mapBytes, Tree.size]; rw [sizeAll_map ts]
theorem sizeAll_map : ∀ ts : List Tree, sizeAll (mapBytesAll π ts) = sizeAll ts
  | [] => rfl
  | t :: ts => by simp only [mapBytesAll, sizeAll]; rw [size_map t, sizeAll_map ts]
end

mutual
theorem number_map : ∀ (t : Tree) (k : Nat), (t.mapBytes π).number k = (t.number k).mapBytes π
  | .text _, _ => rfl
  | .elem _ _ _ ts, k => by simp only [Tree.mapBytes, Tree.number, PTree.mapBytes]; rw [numberAll_map ts]; rfl
theorem numberAll_map : ∀ (ts : List Tree) (k : Nat), numberAll k (mapBytesAll π ts) = PTree.mapBytesAll π (numberAll k ts)
  | [], _ => rfl
  | t :: ts, k => by simp only [mapBytesAll, numberAll, PTree.mapBytesAll]; rw [number_map t, size_map t, numberAll_map ts]
end

theorem id_map (t : PTree) : (t.mapBytes π).id = t.id := by cases t; rfl

mutual
theorem within_map {p : Nat} {f f' : List PTree → List PTree} (hf : ∀ ks, f' (PTree.mapBytesAll π ks) = PTree.mapBytesAll π (f ks)) :
    ∀ t : PTree, (t.mapBytes π).within p f' = (t.within p f).mapBytes π
  | .node n l ks => by
    simp only [PTree.mapBytes, PTree.within]
    congr 1
    split
    · exact hf ks
    · exact withinAll_map hf ks
theorem withinAll_map {p : Nat} {f f' : List PTree → List PTree} (hf : ∀ ks, f' (PTree.mapBytesAll π ks) = PTree.mapBytesAll π (f ks)) :
    ∀ ts : List PTree, withinAll p f' (PTree.mapBytesAll π ts) = PTree.mapBytesAll π (withinAll p f ts)
  | [] => rfl
  | t :: ts => by simp only [PTree.mapBytesAll, withinAll]; rw [within_map hf t, withinAll_map hf ts]
end

mutual
theorem relabel_map {n : Nat} {f f' : Label → Label} (hf : ∀ l, f' (l.mapBytes π) = (f l).mapBytes π) :
    ∀ t : PTree, (t.mapBytes π).relabel n f' = (t.relabel n f).mapBytes π
  | .node m l ks => by
    simp only [PTree.mapBytes, PTree.relabel]
    rw [relabelAll_map hf ks]
    congr 1
    split
    · exact hf l
    · rfl
theorem relabelAll_map {n : Nat} {f f' : Label → Label} (hf : ∀ l, f' (l.mapBytes π) = (f l).mapBytes π) :
    ∀ ts : List PTree, relabelAll n f' (PTree.mapBytesAll π ts) = PTree.mapBytesAll π (relabelAll n f ts)
  | [] => rfl
  | t :: ts => by simp only [PTree.mapBytesAll, relabelAll]; rw [relabel_map hf t, relabelAll_map hf ts]
end

def mapSides (π : UInt8 → UInt8) (x : List PTree × List PTree) : List PTree × List PTree := (PTree.mapBytesAll π x.1, PTree.mapBytesAll π x.2)

theorem around_map {n : Nat} : ∀ ts : List PTree, around n (PTree.mapBytesAll π ts) = (around n ts).map (mapSides π)
  | [] => rfl
  | t :: ts => by
    simp only [PTree.mapBytesAll, around, id_map, around_map ts]
    split
    · rfl
    · simp only [Option.map_map]; rfl

mutual
theorem instead_map {n : Nat} {f f' : List PTree → List PTree → List PTree}
    (hf : ∀ a b, f' (PTree.mapBytesAll π a) (PTree.mapBytesAll π b) = PTree.mapBytesAll π (f a b)) :
    ∀ t : PTree, (t.mapBytes π).instead n f' = (t.instead n f).mapBytes π
  | .node m l ks => by
    simp only [PTree.mapBytes, PTree.instead, around_map]
    cases around n ks with
    | none => exact congrArg _ (insteadAll_map hf ks)
    | some x => exact congrArg _ (hf x.1 x.2)
theorem insteadAll_map {n : Nat} {f f' : List PTree → List PTree → List PTree}
    (hf : ∀ a b, f' (PTree.mapBytesAll π a) (PTree.mapBytesAll π b) = PTree.mapBytesAll π (f a b)) :
    ∀ ts : List PTree, insteadAll n f' (PTree.mapBytesAll π ts) = PTree.mapBytesAll π (insteadAll n f ts)
  | [] => rfl
  | t :: ts => by simp only [PTree.mapBytesAll, insteadAll]; rw [instead_map hf t, insteadAll_map hf ts]
end

theorem join_map (h : Neutral π) (a b : Str) : a.map π ++ b!" " ++ b.map π = (a ++ b!" " ++ b).map π := by
  simp only [List.map_append, h.lit (m := b!" ") (by decide)]

theorem mergeLeft_map (h : Neutral π) (a b : List PTree) : mergeLeft (PTree.mapBytesAll π a) (PTree.mapBytesAll π b) = mapSides π (mergeLeft a b) := by
  unfold mergeLeft
  simp only [mapAll_eq, List.getLast?_map]
  cases hl : a.getLast? with
  | none => simp [mapSides, mapAll_eq]
  | some t =>
    obtain ⟨k, l, ks⟩ := t
    cases b with
    | nil => cases l <;> simp [mapSides, mapAll_eq, PTree.mapBytes, Label.mapBytes]
    | cons u b =>
      obtain ⟨k', l', ks'⟩ := u
      cases l <;> cases l' <;> simp [mapSides, mapAll_eq, PTree.mapBytes, Label.mapBytes]
      exact (h.markup 32 (by decide)).symm

theorem mergeRight_map (h : Neutral π) (a b : List PTree) : mergeRight (PTree.mapBytesAll π a) (PTree.mapBytesAll π b) = mapSides π (mergeRight a b) := by
  unfold mergeRight
  simp only [mapAll_eq, List.getLast?_map]
  cases hl : a.getLast? with
  | none => simp [mapSides, mapAll_eq]
  | some t =>
    obtain ⟨k, l, ks⟩ := t
    cases b with
    | nil => cases l <;> simp [mapSides, mapAll_eq, PTree.mapBytes, Label.mapBytes]
    | cons u b =>
      obtain ⟨k', l', ks'⟩ := u
      cases l <;> cases l' <;> simp [mapSides, mapAll_eq, PTree.mapBytes, Label.mapBytes]
      exact (h.markup 32 (by decide)).symm

theorem between_map (h : Neutral π) (a b c : List PTree) :
    between (PTree.mapBytesAll π a) (PTree.mapBytesAll π b) (PTree.mapBytesAll π c) = PTree.mapBytesAll π (between a b c) := by
  unfold between
  rw [mergeLeft_map h]
  simp only [mapSides]
  rw [mergeRight_map h]
  simp only [mapSides, mapAll_eq, List.map_append]

theorem setFirst_map (h : Neutral π) (k v : Str) : ∀ ps : List (Str × Str), setFirst (k.map π) (v.map π) (ps.map fun p => (p.1.map π, p.2.map π)) =
    (setFirst k v ps).map fun p => (p.1.map π, p.2.map π)
  | [] => rfl
  | (k', v') :: ps => by
    simp only [List.map_cons, setFirst, h.str, setFirst_map h k v ps]
    split <;> rfl

theorem removeFirst_map (h : Neutral π) (k : Str) : ∀ ps : List (Str × Str), removeFirst (k.map π) (ps.map fun p => (p.1.map π, p.2.map π)) =
    (removeFirst k ps).map fun p => (p.1.map π, p.2.map π)
  | [] => rfl
  | (k', v') :: ps => by
    simp only [List.map_cons, removeFirst, h.str, removeFirst_map h k ps]
    split <;> rfl

theorem erase_map (h : Neutral π) (b : Str) : ∀ bs : List Str, (bs.map (·.map π)).erase (b.map π) = (bs.erase b).map (·.map π)
  | [] => rfl
  | c :: bs => by
    simp only [List.map_cons, List.erase_cons]
    have : ((c.map π == b.map π) : Bool) = (c == b) := by rw [Bool.eq_iff_iff, beq_iff_eq, beq_iff_eq, h.str]
    rw [this, erase_map h b bs]
    split <;> rfl

theorem attr_map (h : Neutral π) (op : AttrOp) (l : Label) : (l.mapBytes π).attr (AttrOp.mapBytes π op) = (l.attr op).mapBytes π := by
  cases l with
  | root => rfl
  | text raw => rfl
  | elem tag ps bs =>
    cases op with
    | add n k v => simp [Label.mapBytes, Label.attr, AttrOp.mapBytes]
    | addBool n b => simp [Label.mapBytes, Label.attr, AttrOp.mapBytes]
    | set n k v => simp only [Label.mapBytes, Label.attr, AttrOp.mapBytes, setFirst_map h]
    | remove n k => simp only [Label.mapBytes, Label.attr, AttrOp.mapBytes, removeFirst_map h]
    | removeBool n b => simp only [Label.mapBytes, Label.attr, AttrOp.mapBytes, erase_map h]

theorem addText_map (h : Neutral π) (t : Str) (e : Bool) (l : Label) : (l.mapBytes π).addText (t.map π) e = (l.addText t e).mapBytes π := by
  cases l with
  | root => rfl
  | elem tag ps bs => rfl
  | text raw =>
    simp only [Label.mapBytes, Label.addText]
    cases e
    · exact congrArg _ (join_map h t raw)
    · exact congrArg _ (join_map h raw t)

theorem rename_map (t : Str) (l : Label) : (l.mapBytes π).rename (t.map π) = (l.rename t).mapBytes π := by
  cases l <;> rfl

theorem fragTrees_map (h : Neutral π) (answer : Nat → Bool) (html : Str) : fragTrees answer (html.map π) = mapBytesAll π (fragTrees answer html) := by
  unfold fragTrees
  rw [fragOutcome_map h]
  cases fragOutcome answer html <;> rfl

theorem brings_map (h : Neutral π) (answer : Nat → Bool) (op : Op) : (op.mapBytes π).brings answer = mapBytesAll π (op.brings answer) := by
  cases op <;> first
    | rfl
    | exact fragTrees_map h answer _

theorem names_map (h : Neutral π) (answer : Nat → Bool) (op : Op) : (op.mapBytes π).names answer = mapForms π (op.names answer) := by
  cases op <;> first
    | rfl
    | (simp only [Op.mapBytes, Op.names, fragTokens_map h]; exact tokenForms_map _)

theorem node_map (op : AttrOp) : (AttrOp.mapBytes π op).node = op.node := by cases op <;> rfl

theorem on_map (h : Neutral π) (new : List PTree) (op : Op) (t : PTree) :
    (op.mapBytes π).on (PTree.mapBytesAll π new) (t.mapBytes π) = (op.on new t).mapBytes π := by
  have hn : ∀ ks : List PTree, between (PTree.mapBytesAll π ks) (PTree.mapBytesAll π new) [] = PTree.mapBytesAll π (between ks new []) :=
    fun ks => between_map h ks new []
  have hp : ∀ ks : List PTree, between [] (PTree.mapBytesAll π new) (PTree.mapBytesAll π ks) = PTree.mapBytesAll π (between [] new ks) :=
    fun ks => between_map h [] new ks
  cases op with
  | attr op => simp only [Op.mapBytes, Op.on, node_map]; exact relabel_map (attr_map h op) t
  | addText n s e => exact relabel_map (addText_map h s e) t
  | setTag s n p => exact relabel_map (rename_map s) t
  | setText n s => exact within_map (f := fun _ => new) (f' := fun _ => PTree.mapBytesAll π new) (fun _ => rfl) t
  | removeNode n => exact instead_map (fun a b => by simp only [mapAll_eq, List.map_append]) t
  | removeChildren n => exact within_map (f := fun _ => []) (f' := fun _ => []) (fun _ => rfl) t
  | appendDoc p d => exact within_map hn t
  | appendText p d => exact within_map hn t
  | appendHTML p d => exact within_map hn t
  | prependDoc p d => exact within_map hp t
  | prependText p d => exact within_map hp t
  | prependHTML p d => exact within_map hp t
  | replaceDoc n d => exact instead_map (fun a b => between_map h a new b) t
  | replaceText n d => exact instead_map (fun a b => between_map h a new b) t
  | replaceHTML n d => exact instead_map (fun a b => between_map h a new b) t

theorem step_map (h : Neutral π) (answer : Nat → Bool) (op : Op) (pg : Page) :
    (pg.mapBytes π).step answer (op.mapBytes π) = (pg.step answer op).mapBytes π := by
  simp only [Page.step, Page.mapBytes, Page.mk.injEq]
  rw [brings_map h, sizeAll_map, names_map h, numberAll_map, on_map h]
  exact ⟨rfl, by simp [mapForms], rfl⟩

theorem fragment_map (op : Op) : (op.mapBytes π).fragment = op.fragment.map (·.map π) := by cases op <;> rfl

theorem readUntil_map (limit : Nat) : ∀ (ts : List Token) (n : Nat), readUntil limit n (ts.map (Token.mapBytes π)) = (readUntil limit n ts).map (Token.mapBytes π)
  | [], _ => rfl
  | .close :: ts, n => congrArg (_ :: ·) (readUntil_map limit ts _)
  | .text _ :: ts, n => congrArg (_ :: ·) (readUntil_map limit ts _)
  | .start _ _ false :: ts, n => congrArg (_ :: ·) (readUntil_map limit ts _)
  | .start _ _ true :: ts, n => by
    simp only [List.map_cons, Token.mapBytes, readUntil, readUntil_map limit ts]
    split <;> rfl

theorem nodesOf_map : ∀ ts : List Token, nodesOf (ts.map (Token.mapBytes π)) = nodesOf ts
  | [] => rfl
  | .close :: ts => nodesOf_map ts
  | .text _ :: ts => congrArg (· + 1) (nodesOf_map ts)
  | .start _ _ _ :: ts => congrArg (· + 1) (nodesOf_map ts)

theorem refuse_map (h : Neutral π) (answer : Nat → Bool) (html : Str) (pg : Page) :
    (pg.mapBytes π).refuse answer (html.map π) = (pg.refuse answer html).mapBytes π := by
  simp only [Page.refuse, Page.mapBytes, Page.mk.injEq, fragTokens_map h, readUntil_map, nodesOf_map, tokenForms_map]
  exact ⟨trivial, by simp [mapForms], trivial⟩

theorem outcome_null_map (o : Outcome) : o.mapBytes π = .null ↔ o = .null := by cases o <;> simp [Outcome.mapBytes]

theorem call_map (h : Neutral π) (answer : Nat → Bool) (op : Op) (pg : Page) :
    (pg.mapBytes π).call answer (op.mapBytes π) = (pg.call answer op).mapBytes π := by
  unfold Page.call
  rw [fragment_map]
  cases op.fragment with
  | none => exact step_map h answer op pg
  | some html =>
    simp only [Option.map_some, fragOutcome_map h]
    cases fragOutcome answer html with
    | null => exact refuse_map h answer html pg
    | document F => exact step_map h answer op pg
    | outside => exact step_map h answer op pg

theorem calls_map (h : Neutral π) : ∀ (ops : List (Op × (Nat → Bool))) (pg : Page),
    (pg.mapBytes π).calls (mapSession π ops) = (pg.calls ops).mapBytes π
  | [], _ => rfl
  | o :: ops, pg => by
    show ((pg.mapBytes π).call o.2 (o.1.mapBytes π)).calls (mapSession π ops) = _
    rw [call_map h, calls_map h ops]
    rfl

theorem load_map (h : Neutral π) (s : Str) : Page.load (s.map π) = (Page.load s).mapBytes π := by
  simp only [Page.load, Page.mapBytes, PTree.mapBytes, Page.mk.injEq, docTokens_map h, treesOf_map, sizeAll_map, numberAll_map, tokenForms_map]
  exact ⟨trivial, rfl, rfl⟩

/-! ## Sessions in order -/

mutual
theorem entries_map : ∀ t : PTree, (t.mapBytes π).entries = t.entries.map fun e => (e.1, e.2.mapBytes π)
  | .node n l ks => by simp only [PTree.mapBytes, PTree.entries, List.map_cons]; rw [entriesAll_map ks]
theorem entriesAll_map : ∀ ts : List PTree, entriesAll (PTree.mapBytesAll π ts) = (entriesAll ts).map fun e => (e.1, e.2.mapBytes π)
  | [] => rfl
  | t :: ts => by simp only [PTree.mapBytesAll, entriesAll, List.map_append]; rw [entries_map t, entriesAll_map ts]
end

mutual
theorem siblings_map {n : Nat} : ∀ t : PTree, (t.mapBytes π).siblings n = (t.siblings n).map (mapSides π)
  | .node m l ks => by
    simp only [PTree.mapBytes, PTree.siblings, around_map, siblingsAll_map ks]
    cases around n ks <;> rfl
theorem siblingsAll_map {n : Nat} : ∀ ts : List PTree, siblingsAll n (PTree.mapBytesAll π ts) = (siblingsAll n ts).map (mapSides π)
  | [] => rfl
  | t :: ts => by
    simp only [PTree.mapBytesAll, siblingsAll, siblings_map t, siblingsAll_map ts]
    cases t.siblings n <;> rfl
end

theorem isText_map (l : Label) : (l.mapBytes π).isText = l.isText := by cases l <;> rfl

theorem mem_map_entries {pg : Page} {n : Nat} {l : Label} (h : (n, l) ∈ pg.root.entries) : (n, l.mapBytes π) ∈ (pg.mapBytes π).root.entries := by
  show _ ∈ (pg.root.mapBytes π).entries
  rw [entries_map]
  exact List.mem_map.2 ⟨_, h, rfl⟩

theorem siblings_some {pg : Page} {n : Nat} {x : List PTree × List PTree} (h : pg.root.siblings n = some x) :
    (pg.mapBytes π).root.siblings n = some (mapSides π x) := by
  show (pg.root.mapBytes π).siblings n = _
  rw [siblings_map, h]; rfl

theorem isText_tree (t : PTree) : (t.mapBytes π).isText = t.isText := by
  cases t; exact isText_map _

theorem fragmentOK_map (h : Neutral π) {answer : Nat → Bool} {html : Str} (hf : FragmentOK answer html) : FragmentOK answer (html.map π) := by
  obtain ⟨F, h1, h2⟩ := hf
  refine ⟨mapBytesAll π F, by rw [fragOutcome_map h, h1]; rfl, ?_⟩
  cases F with
  | nil => exact absurd rfl h2
  | cons => simp [mapBytesAll]

theorem isText_all : ∀ F : List Tree, (mapBytesAll π F).map Tree.isText = F.map Tree.isText
  | [] => rfl
  | .text _ :: F => congrArg (_ :: ·) (isText_all F)
  | .elem _ _ _ _ :: F => congrArg (_ :: ·) (isText_all F)

theorem clash_map {F : List Tree} {a b : List PTree} (h : NotClashing F a b) :
    NotClashing (mapBytesAll π F) (PTree.mapBytesAll π a) (PTree.mapBytesAll π b) := by
  unfold NotClashing at *
  have e1 : (PTree.mapBytesAll π b).head?.any PTree.isText = b.head?.any PTree.isText := by
    rw [mapAll_eq, List.head?_map]
    cases b.head? with
    | none => rfl
    | some t => exact isText_tree t
  have e2 : (PTree.mapBytesAll π a).getLast?.any PTree.isText = a.getLast?.any PTree.isText := by
    rw [mapAll_eq, List.getLast?_map]
    cases a.getLast? with
    | none => rfl
    | some t => exact isText_tree t
  have e3 : PTree.mapBytesAll π a = [] ↔ a = [] := by rw [mapAll_eq, List.map_eq_nil_iff]
  rw [isText_all, e1, e2, e3]
  exact h

theorem allows_map (h : Neutral π) {answer : Nat → Bool} {pg : Page} {op : Op} (ha : pg.Allows answer op) :
    (pg.mapBytes π).Allows answer (op.mapBytes π) := by
  have hl : ∀ {p : Nat}, (∃ l, (p, l) ∈ pg.root.entries ∧ l.isText = false) → ∃ l, (p, l) ∈ (pg.mapBytes π).root.entries ∧ l.isText = false := by
    rintro p ⟨l, h1, h2⟩
    exact ⟨_, mem_map_entries h1, by rw [isText_map]; exact h2⟩
  have hs : ∀ {n : Nat}, (∃ x, pg.root.siblings n = some x) → ∃ x, (pg.mapBytes π).root.siblings n = some x := by
    rintro n ⟨x, hx⟩; exact ⟨_, siblings_some hx⟩
  cases op with
  | attr op =>
    obtain ⟨l, hm⟩ := ha
    have e := mem_map_entries (π := π) hm
    exact ⟨l.mapBytes π, by rw [node_map]; exact e⟩
  | addText n s e => obtain ⟨raw, hm⟩ := ha; exact ⟨_, mem_map_entries hm⟩
  | setTag s n p => obtain ⟨tag, ps, bs, hm⟩ := ha; exact ⟨_, _, _, mem_map_entries hm⟩
  | setText n s => exact hl ha
  | removeNode n => exact hs ha
  | removeChildren n => exact hl ha
  | appendDoc p d => exact hl ha
  | appendText p d => exact hl ha
  | appendHTML p d => exact ⟨hl ha.1, fragmentOK_map h ha.2⟩
  | prependDoc p d => exact hl ha
  | prependText p d => exact hl ha
  | prependHTML p d => exact ⟨hl ha.1, fragmentOK_map h ha.2⟩
  | replaceDoc n d => exact hs ha
  | replaceText n d => exact hs ha
  | replaceHTML n d =>
    obtain ⟨x, h1, h2, h3⟩ := ha
    refine ⟨_, siblings_some h1, fragmentOK_map h h2, ?_⟩
    rw [fragTrees_map h]
    exact clash_map h3

theorem permits_map (h : Neutral π) {answer : Nat → Bool} {pg : Page} {op : Op} (ha : pg.Permits answer op) :
    (pg.mapBytes π).Permits answer (op.mapBytes π) := by
  rcases ha with ha | ⟨⟨html, h1, h2⟩, h3⟩
  · exact .inl (allows_map h ha)
  · refine .inr ⟨⟨html.map π, by rw [fragment_map, h1]; rfl, by rw [fragOutcome_map h, h2]; rfl⟩, ?_⟩
    cases op <;> first
      | trivial
      | (obtain ⟨l, hm⟩ := h3; exact ⟨_, mem_map_entries hm⟩)
      | (obtain ⟨x, hx⟩ := h3; exact ⟨_, siblings_some hx⟩)

theorem permitsAll_map (h : Neutral π) : ∀ (ops : List (Op × (Nat → Bool))) {pg : Page}, pg.PermitsAll ops → (pg.mapBytes π).PermitsAll (mapSession π ops)
  | [], _, _ => trivial
  | o :: ops, pg, hp => by
    refine ⟨permits_map h hp.1, ?_⟩
    show ((pg.mapBytes π).call o.2 (o.1.mapBytes π)).PermitsAll (mapSession π ops)
    rw [call_map h]
    exact permitsAll_map h ops hp.2

theorem cost_map (op : Op) : (op.mapBytes π).cost = op.cost := by
  cases op with
  | attr op => cases op <;> rfl
  | appendDoc p d => simp [Op.mapBytes, Op.cost, docCost, DocNode.mapBytes]
  | prependDoc p d => simp [Op.mapBytes, Op.cost, docCost, DocNode.mapBytes]
  | replaceDoc p d => simp [Op.mapBytes, Op.cost, docCost, DocNode.mapBytes]
  | appendHTML p d => simp [Op.mapBytes, Op.cost]
  | prependHTML p d => simp [Op.mapBytes, Op.cost]
  | replaceHTML p d => simp [Op.mapBytes, Op.cost]
  | _ => rfl

mutual
theorem plain_map : ∀ t : PTree, (t.mapBytes π).plain = t.plain.mapBytes π
  | .node n (.text raw) ks => rfl
  | .node n (.elem tag ps bs) ks => by simp only [PTree.mapBytes, Label.mapBytes, PTree.plain, Tree.mapBytes]; rw [plainAll_map ks]
  | .node n .root ks => by simp only [PTree.mapBytes, Label.mapBytes, PTree.plain, Tree.mapBytes]; rw [plainAll_map ks]; rfl
theorem plainAll_map : ∀ ts : List PTree, plainAll (PTree.mapBytesAll π ts) = mapBytesAll π (plainAll ts)
  | [] => rfl
  | t :: ts => by simp only [PTree.mapBytesAll, plainAll, mapBytesAll]; rw [plain_map t, plainAll_map ts]
end

theorem page_trees_map (pg : Page) : (pg.mapBytes π).trees = mapBytesAll π pg.trees := by
  obtain ⟨a, b, ⟨n, l, ks⟩⟩ := pg
  exact plainAll_map ks

theorem page_print_map (h : Neutral π) (pg : Page) : (pg.mapBytes π).print = pg.print.map π := by
  unfold Page.print
  rw [page_trees_map]
  refine printAll_map h ?_ _
  intro tag
  exact congrArg (·.getD false) (firstForm_map h pg.forms tag)

end Flo.Ren
