import Verif.Proofs.Utf8
import Verif.Spec.PageRefuse
/-!
# A page in UTF-8 stays in UTF-8
-/
namespace Flo
open Spec

def LabelOK (l : Label) : Prop := ∀ x ∈ l.strings, Utf8 x

def TreeOK (t : PTree) : Prop := ∀ e ∈ t.entries, LabelOK e.2
def TreesOK (ts : List PTree) : Prop := ∀ e ∈ entriesAll ts, LabelOK e.2

theorem label_elem {tag : Str} {ps : List (Str × Str)} {bs : List Str} :
    LabelOK (.elem tag ps bs) ↔ Utf8 tag ∧ (∀ p ∈ ps, Utf8 p.1 ∧ Utf8 p.2) ∧ ∀ b ∈ bs, Utf8 b := by
  unfold LabelOK
  simp only [Label.strings, List.cons_append, List.mem_cons, List.mem_append, List.mem_map]
  constructor
  · intro h
    exact ⟨h _ (.inl rfl), fun p hp => ⟨h _ (.inr (.inl (.inl ⟨p, hp, rfl⟩))), h _ (.inr (.inl (.inr ⟨p, hp, rfl⟩)))⟩, fun b hb => h _ (.inr (.inr hb))⟩
  · rintro ⟨h1, h2, h3⟩ x (rfl | (⟨p, hp, rfl⟩ | ⟨p, hp, rfl⟩) | hb)
    · exact h1
    · exact (h2 p hp).1
    · exact (h2 p hp).2
    · exact h3 x hb

theorem label_text {raw : Str} : LabelOK (.text raw) ↔ Utf8 raw := by simp [LabelOK, Label.strings]

theorem treeOK_node {n : Nat} {l : Label} {ks : List PTree} : TreeOK (.node n l ks) ↔ LabelOK l ∧ TreesOK ks := by
  simp [TreeOK, TreesOK, PTree.entries]

theorem treesOK_nil : TreesOK [] := by simp [TreesOK, entriesAll]

theorem treesOK_cons {t : PTree} {ts : List PTree} : TreesOK (t :: ts) ↔ TreeOK t ∧ TreesOK ts := by
  simp only [TreesOK, TreeOK, entriesAll, List.mem_append]
  exact ⟨fun h => ⟨fun e he => h e (.inl he), fun e he => h e (.inr he)⟩, fun h e he => he.elim (h.1 e) (h.2 e)⟩

theorem treesOK_iff {ts : List PTree} : TreesOK ts ↔ ∀ t ∈ ts, TreeOK t := by
  induction ts with
  | nil => simp [treesOK_nil]
  | cons t ts ih => rw [treesOK_cons, ih]; simp

mutual
theorem number_ok : ∀ (t : Tree) (k : Nat), (∀ x ∈ t.strings, Utf8 x) → TreeOK (t.number k)
  | .text raw, k, h => treeOK_node.2 ⟨h, treesOK_nil⟩
  | .elem tag ps bs ts, k, h => by
    obtain ⟨h1, h2, h3, h4⟩ := elem_utf8.1 h
    exact treeOK_node.2 ⟨label_elem.2 ⟨h1, h2, h3⟩, numberAll_ok ts _ h4⟩
theorem numberAll_ok : ∀ (ts : List Tree) (k : Nat), (∀ x ∈ stringsAll ts, Utf8 x) → TreesOK (numberAll k ts)
  | [], _, _ => treesOK_nil
  | t :: ts, k, h => by
    obtain ⟨h1, h2⟩ := stringsAll_cons.1 h
    exact treesOK_cons.2 ⟨number_ok t k h1, numberAll_ok ts _ h2⟩
end

mutual
theorem within_ok {p : Nat} {f : List PTree → List PTree} (hf : ∀ ks, TreesOK ks → TreesOK (f ks)) : ∀ t : PTree, TreeOK t → TreeOK (t.within p f)
  | .node n l ks, h => by
    obtain ⟨h1, h2⟩ := treeOK_node.1 h
    simp only [PTree.within]
    refine treeOK_node.2 ⟨h1, ?_⟩
    split
    · exact hf ks h2
    · exact withinAll_ok hf ks h2
theorem withinAll_ok {p : Nat} {f : List PTree → List PTree} (hf : ∀ ks, TreesOK ks → TreesOK (f ks)) : ∀ ts : List PTree, TreesOK ts → TreesOK (withinAll p f ts)
  | [], _ => treesOK_nil
  | t :: ts, h => by
    obtain ⟨h1, h2⟩ := treesOK_cons.1 h
    exact treesOK_cons.2 ⟨within_ok hf t h1, withinAll_ok hf ts h2⟩
end

mutual
theorem relabel_ok {n : Nat} {f : Label → Label} (hf : ∀ l, LabelOK l → LabelOK (f l)) : ∀ t : PTree, TreeOK t → TreeOK (t.relabel n f)
  | .node m l ks, h => by
    obtain ⟨h1, h2⟩ := treeOK_node.1 h
    simp only [PTree.relabel]
    refine treeOK_node.2 ⟨?_, relabelAll_ok hf ks h2⟩
    split
    · exact hf l h1
    · exact h1
theorem relabelAll_ok {n : Nat} {f : Label → Label} (hf : ∀ l, LabelOK l → LabelOK (f l)) : ∀ ts : List PTree, TreesOK ts → TreesOK (relabelAll n f ts)
  | [], _ => treesOK_nil
  | t :: ts, h => by
    obtain ⟨h1, h2⟩ := treesOK_cons.1 h
    exact treesOK_cons.2 ⟨relabel_ok hf t h1, relabelAll_ok hf ts h2⟩
end

theorem around_ok {n : Nat} : ∀ {ts : List PTree} {x : List PTree × List PTree}, around n ts = some x → TreesOK ts → TreesOK x.1 ∧ TreesOK x.2
  | [], _, h, _ => by simp [around] at h
  | t :: ts, x, h, hk => by
    obtain ⟨h1, h2⟩ := treesOK_cons.1 hk
    simp only [around] at h
    split at h
    · cases h; exact ⟨treesOK_nil, h2⟩
    · obtain ⟨y, hy, rfl⟩ := Option.map_eq_some_iff.1 h
      obtain ⟨g1, g2⟩ := around_ok hy h2
      exact ⟨treesOK_cons.2 ⟨h1, g1⟩, g2⟩

mutual
theorem instead_ok {n : Nat} {f : List PTree → List PTree → List PTree} (hf : ∀ a b, TreesOK a → TreesOK b → TreesOK (f a b)) :
    ∀ t : PTree, TreeOK t → TreeOK (t.instead n f)
  | .node m l ks, h => by
    obtain ⟨h1, h2⟩ := treeOK_node.1 h
    simp only [PTree.instead]
    refine treeOK_node.2 ⟨h1, ?_⟩
    split
    · rename_i x hx
      obtain ⟨g1, g2⟩ := around_ok hx h2
      exact hf _ _ g1 g2
    · exact insteadAll_ok hf ks h2
theorem insteadAll_ok {n : Nat} {f : List PTree → List PTree → List PTree} (hf : ∀ a b, TreesOK a → TreesOK b → TreesOK (f a b)) :
    ∀ ts : List PTree, TreesOK ts → TreesOK (insteadAll n f ts)
  | [], _ => treesOK_nil
  | t :: ts, h => by
    obtain ⟨h1, h2⟩ := treesOK_cons.1 h
    exact treesOK_cons.2 ⟨instead_ok hf t h1, insteadAll_ok hf ts h2⟩
end

theorem joined_ok {a b : Str} (ha : Utf8 a) (hb : Utf8 b) : Utf8 (a ++ b!" " ++ b) := (ha.append (.ofAscii (by decide))).append hb

theorem mergeLeft_ok {a b : List PTree} (ha : TreesOK a) (hb : TreesOK b) : TreesOK (mergeLeft a b).1 ∧ TreesOK (mergeLeft a b).2 := by
  unfold mergeLeft
  split
  · rename_i k x ks m y z rest hl
    have ha' := treesOK_iff.1 ha
    obtain ⟨h1, h2⟩ := treeOK_node.1 (ha' _ (List.mem_of_getLast? hl))
    obtain ⟨h3, h4⟩ := treesOK_cons.1 hb
    refine ⟨treesOK_iff.2 fun t ht => ?_, h4⟩
    rcases List.mem_append.1 ht with ht | ht
    · exact ha' t (List.dropLast_subset _ ht)
    · simp only [List.mem_singleton] at ht
      subst ht
      exact treeOK_node.2 ⟨label_text.2 (joined_ok (label_text.1 h1) (label_text.1 (treeOK_node.1 h3).1)), h2⟩
  · exact ⟨ha, hb⟩

theorem mergeRight_ok {a b : List PTree} (ha : TreesOK a) (hb : TreesOK b) : TreesOK (mergeRight a b).1 ∧ TreesOK (mergeRight a b).2 := by
  unfold mergeRight
  split
  · rename_i m y z k x ks rest hl
    have ha' := treesOK_iff.1 ha
    obtain ⟨h1, h2⟩ := treeOK_node.1 (ha' _ (List.mem_of_getLast? hl))
    obtain ⟨h3, h4⟩ := treesOK_cons.1 hb
    obtain ⟨h5, h6⟩ := treeOK_node.1 h3
    exact ⟨treesOK_iff.2 fun t ht => ha' t (List.dropLast_subset _ ht),
      treesOK_cons.2 ⟨treeOK_node.2 ⟨label_text.2 (joined_ok (label_text.1 h1) (label_text.1 h5)), h6⟩, h4⟩⟩
  · exact ⟨ha, hb⟩

theorem treesOK_append {a b : List PTree} (ha : TreesOK a) (hb : TreesOK b) : TreesOK (a ++ b) :=
  treesOK_iff.2 fun t ht => (List.mem_append.1 ht).elim (treesOK_iff.1 ha t) (treesOK_iff.1 hb t)

theorem between_ok {a b c : List PTree} (ha : TreesOK a) (hb : TreesOK b) (hc : TreesOK c) : TreesOK (between a b c) := by
  obtain ⟨h1, h2⟩ := mergeLeft_ok ha hb
  obtain ⟨h3, h4⟩ := mergeRight_ok h2 hc
  exact treesOK_append (treesOK_append h1 h3) h4

theorem setFirst_mem {k v : Str} : ∀ {ps : List (Str × Str)} {p : Str × Str}, p ∈ setFirst k v ps → p ∈ ps ∨ p = (k, v)
  | [], p, h => by simp only [setFirst] at h; simp_all
  | (k', v') :: ps, p, h => by
    simp only [setFirst] at h
    split at h
    · rcases List.mem_cons.1 h with rfl | h
      · right; simp_all
      · exact .inl (List.mem_cons_of_mem _ h)
    · rcases List.mem_cons.1 h with rfl | h
      · exact .inl (by simp)
      · exact (setFirst_mem h).imp_left (List.mem_cons_of_mem _)

theorem removeFirst_mem {k : Str} : ∀ {ps : List (Str × Str)} {p : Str × Str}, p ∈ removeFirst k ps → p ∈ ps
  | [], p, h => by simp only [removeFirst] at h; exact h
  | (k', v') :: ps, p, h => by
    simp only [removeFirst] at h
    split at h
    · exact List.mem_cons_of_mem _ h
    · rcases List.mem_cons.1 h with rfl | h
      · simp
      · exact List.mem_cons_of_mem _ (removeFirst_mem h)

theorem attr_ok {op : AttrOp} (h : (Op.attr op).InUtf8) (l : Label) (hl : LabelOK l) : LabelOK (l.attr op) := by
  cases l with
  | root => exact hl
  | text raw => exact hl
  | elem tag ps bs =>
    obtain ⟨h1, h2, h3⟩ := label_elem.1 hl
    cases op with
    | add n k v =>
      refine label_elem.2 ⟨h1, fun p hp => ?_, h3⟩
      rcases List.mem_append.1 hp with hp | hp
      · exact h2 p hp
      · simp only [List.mem_singleton] at hp; subst hp; exact h
    | addBool n b =>
      refine label_elem.2 ⟨h1, h2, fun p hp => ?_⟩
      rcases List.mem_append.1 hp with hp | hp
      · exact h3 p hp
      · simp only [List.mem_singleton] at hp; subst hp; exact h
    | set n k v =>
      refine label_elem.2 ⟨h1, fun p hp => ?_, h3⟩
      rcases setFirst_mem hp with hp | rfl
      · exact h2 p hp
      · exact h
    | remove n k => exact label_elem.2 ⟨h1, fun p hp => h2 p (removeFirst_mem hp), h3⟩
    | removeBool n b => exact label_elem.2 ⟨h1, h2, fun p hp => h3 p (List.mem_of_mem_erase hp)⟩

theorem addText_ok {t : Str} {e : Bool} (h : Utf8 t) (l : Label) (hl : LabelOK l) : LabelOK (l.addText t e) := by
  cases l with
  | root => exact hl
  | elem tag ps bs => exact hl
  | text raw =>
    have hl := label_text.1 hl
    refine label_text.2 ?_
    split
    · exact joined_ok hl h
    · exact joined_ok h hl

theorem rename_ok {t : Str} (h : Utf8 t) (l : Label) (hl : LabelOK l) : LabelOK (l.rename t) := by
  cases l with
  | root => exact hl
  | text raw => exact hl
  | elem tag ps bs =>
    obtain ⟨_, h2, h3⟩ := label_elem.1 hl
    exact label_elem.2 ⟨h, h2, h3⟩

theorem fragTrees_utf8 {answer : Nat → Bool} {h : Str} (h1 : Utf8 h) (h2 : AsciiEnd h) : ∀ x ∈ stringsAll (fragTrees answer h), Utf8 x := by
  unfold fragTrees fragOutcome
  split
  · rename_i F hF
    split at hF
    · cases hF
    · split at hF
      · cases hF
      · cases hF; exact trees_utf8 h1 h2 _ _
  · simp [stringsAll]

theorem brings_utf8 {answer : Nat → Bool} {op : Op} (h : op.InUtf8) : ∀ x ∈ stringsAll (op.brings answer), Utf8 x := by
  have ht : ∀ {t : Str}, Utf8 t → ∀ x ∈ stringsAll [.text t], Utf8 x := fun h => by simpa [stringsAll, Tree.strings] using h
  have hd : ∀ {doc : DocNode}, (Utf8 doc.tag ∧ (∀ b ∈ doc.boolProps, Utf8 b) ∧ ∀ p ∈ doc.props, Utf8 p.1 ∧ Utf8 p.2) →
      ∀ x ∈ stringsAll [.elem doc.tag doc.props doc.boolProps []], Utf8 x := fun h =>
    stringsAll_cons.2 ⟨elem_utf8.2 ⟨h.1, h.2.2, h.2.1, by simp [stringsAll]⟩, by simp [stringsAll]⟩
  cases op <;> first
    | exact ht h
    | exact hd h
    | exact fragTrees_utf8 h.1 h.2
    | simp [Op.brings, stringsAll]

theorem step_utf8 {answer : Nat → Bool} {op : Op} {pg : Page} (h : op.InUtf8) (hp : pg.InUtf8) : (pg.step answer op).InUtf8 := by
  have hn : TreesOK (numberAll pg.next (op.brings answer)) := numberAll_ok _ _ (brings_utf8 h)
  show TreeOK (op.on _ pg.root)
  have hp : TreeOK pg.root := hp
  generalize numberAll pg.next (op.brings answer) = new at hn
  cases op with
  | attr op => exact relabel_ok (attr_ok h) _ hp
  | addText n t e => exact relabel_ok (addText_ok h) _ hp
  | setTag t n p => exact relabel_ok (rename_ok h) _ hp
  | setText n t => exact within_ok (fun _ _ => hn) _ hp
  | removeNode n => exact instead_ok (fun _ _ => treesOK_append) _ hp
  | removeChildren n => exact within_ok (fun _ _ => treesOK_nil) _ hp
  | appendDoc p d => exact within_ok (fun _ hk => between_ok hk hn treesOK_nil) _ hp
  | appendText p d => exact within_ok (fun _ hk => between_ok hk hn treesOK_nil) _ hp
  | appendHTML p d => exact within_ok (fun _ hk => between_ok hk hn treesOK_nil) _ hp
  | prependDoc p d => exact within_ok (fun _ hk => between_ok treesOK_nil hn hk) _ hp
  | prependText p d => exact within_ok (fun _ hk => between_ok treesOK_nil hn hk) _ hp
  | prependHTML p d => exact within_ok (fun _ hk => between_ok treesOK_nil hn hk) _ hp
  | replaceDoc n d => exact instead_ok (fun _ _ ha hb => between_ok ha hn hb) _ hp
  | replaceText n d => exact instead_ok (fun _ _ ha hb => between_ok ha hn hb) _ hp
  | replaceHTML n d => exact instead_ok (fun _ _ ha hb => between_ok ha hn hb) _ hp

theorem call_utf8 {answer : Nat → Bool} {op : Op} {pg : Page} (h : op.InUtf8) (hp : pg.InUtf8) : (pg.call answer op).InUtf8 := by
  unfold Page.call
  split
  · split
    · exact hp
    · exact step_utf8 h hp
  · exact step_utf8 h hp

theorem calls_utf8 : ∀ (ops : List (Op × (Nat → Bool))) {pg : Page}, (∀ o ∈ ops, o.1.InUtf8) → pg.InUtf8 → (pg.calls ops).InUtf8
  | [], _, _, hp => hp
  | o :: ops, _, h, hp => calls_utf8 ops (fun x hx => h x (List.mem_cons_of_mem _ hx)) (call_utf8 (h o (by simp)) hp)

theorem load_utf8 {s : Str} (h : Utf8 s) (hs : AsciiEnd s) : (Page.load s).InUtf8 :=
  treeOK_node.2 ⟨by simp [LabelOK, Label.strings], numberAll_ok _ _ (trees_utf8 h hs _ _)⟩

mutual
theorem plain_utf8 : ∀ t : PTree, TreeOK t → ∀ x ∈ t.plain.strings, Utf8 x
  | .node n (.text raw) ks, h => (treeOK_node.1 h).1
  | .node n (.elem tag ps bs) ks, h => by
    obtain ⟨h1, h2⟩ := treeOK_node.1 h
    obtain ⟨g1, g2, g3⟩ := label_elem.1 h1
    exact elem_utf8.2 ⟨g1, g2, g3, plainAll_utf8 ks h2⟩
  | .node n .root ks, h => elem_utf8.2 ⟨.nil, by simp, by simp, plainAll_utf8 ks (treeOK_node.1 h).2⟩
theorem plainAll_utf8 : ∀ ts : List PTree, TreesOK ts → ∀ x ∈ stringsAll (plainAll ts), Utf8 x
  | [], _ => by simp [plainAll, stringsAll]
  | t :: ts, h => by
    obtain ⟨h1, h2⟩ := treesOK_cons.1 h
    exact stringsAll_cons.2 ⟨plain_utf8 t h1, plainAll_utf8 ts h2⟩
end

theorem page_print_utf8 {pg : Page} (h : pg.InUtf8) : Utf8 pg.print := by
  unfold Page.print Page.trees
  cases hr : pg.root with
  | node n l ks =>
    have h : TreeOK pg.root := h
    rw [hr] at h
    exact printAll_utf8 _ _ (plainAll_utf8 ks (treeOK_node.1 h).2)

end Flo
