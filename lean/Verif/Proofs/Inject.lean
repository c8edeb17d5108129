import Verif.Spec.Inject
import Verif.Proofs.Reparse
import Verif.Proofs.LexSrc
import Verif.Proofs.PageUtf8
/-!
# Printing pages with harmless strings and parsing again
-/
namespace Flo.Inj
open Spec

theorem stretch_append {a b : Str} (ha : Stretch a) (hb : Stretch b) : Stretch (a ++ b) := by
  obtain ⟨na, c, r, rfl, hc⟩ := ha
  obtain ⟨nb, c', r', rfl, hc'⟩ := hb
  have ha := NText.of_normal na
  have hb := NText.of_normal nb
  refine ⟨NText.normal ⟨?_, ?_, ?_⟩, c, r ++ c' :: r', rfl, hc⟩
  · intro x hx
    exact (List.mem_append.1 hx).elim (ha.chars x) (hb.chars x)
  · refine List.isChain_append.2 ⟨ha.chain, hb.chain, ?_⟩
    rintro x hx y hy ⟨_, rfl⟩
    simp only [List.head?_cons, Option.mem_def, Option.some.injEq] at hy
    exact hc' hy
  · rw [List.getLast?_append_of_ne_nil _ (by simp)]
    exact hb.last

theorem stretch_join {a b : Str} (ha : Stretch a) (hb : Stretch b) : Stretch (a ++ b!" " ++ b) := by
  obtain ⟨na, c, r, rfl, hc⟩ := ha
  obtain ⟨nb, c', r', rfl, hc'⟩ := hb
  have ha := NText.of_normal na
  have hb := NText.of_normal nb
  refine ⟨NText.normal ⟨?_, ?_, ?_⟩, c, _, rfl, hc⟩
  · intro x hx
    rcases List.mem_append.1 hx with hx | hx
    · rcases List.mem_append.1 hx with hx | hx
      · exact ha.chars x hx
      · simp only [List.mem_singleton] at hx; subst hx; decide
    · exact hb.chars x hx
  · rw [List.append_assoc]
    refine List.isChain_append.2 ⟨ha.chain, ?_, ?_⟩
    · refine List.isChain_append.2 ⟨by simp, hb.chain, ?_⟩
      rintro x hx y hy ⟨_, rfl⟩
      simp only [List.head?_cons, Option.mem_def, Option.some.injEq] at hy
      exact hc' hy
    · rintro x hx y hy ⟨rfl, _⟩
      exact ha.last hx
  · rw [List.getLast?_append_of_ne_nil _ (by simp)]
    exact hb.last

/-! ## Joining texts -/

section
variable {P : Str → Bool}

theorem printAll_joinText (t : Tree) (ts : List Tree) : printAll P (joinText t ts) = t.print P ++ printAll P ts := by
  unfold joinText
  split
  · simp [printAll, Tree.print]
  · rfl

mutual
theorem print_join : ∀ t : Tree, (t.joinTexts).print P = t.print P
  | .text raw => rfl
  | .elem tag ps bs ts => by simp only [Tree.joinTexts, Tree.print]; rw [printAll_join ts]
theorem printAll_join : ∀ ts : List Tree, printAll P (joinTextsAll ts) = printAll P ts
  | [] => rfl
  | t :: ts => by rw [joinTextsAll, printAll_joinText, print_join t, printAll_join ts]; rfl
end

theorem nestingAll_joinText (t : Tree) (ts : List Tree) : nestingAll P (joinText t ts) = max (t.nesting P) (nestingAll P ts) := by
  unfold joinText
  split
  · simp [nestingAll, Tree.nesting]
  · rfl

mutual
theorem nesting_join : ∀ t : Tree, (t.joinTexts).nesting P = t.nesting P
  | .text raw => rfl
  | .elem tag ps bs ts => by simp only [Tree.joinTexts, Tree.nesting]; rw [nestingAll_join ts]
theorem nestingAll_join : ∀ ts : List Tree, nestingAll P (joinTextsAll ts) = nestingAll P ts
  | [] => rfl
  | t :: ts => by rw [joinTextsAll, nestingAll_joinText, nesting_join t, nestingAll_join ts]; rfl
end

theorem joinText_nil {ts : List Tree} (h : joinTextsAll ts = []) : ts = [] := by
  cases ts with
  | nil => rfl
  | cons t ts =>
    rw [joinTextsAll] at h
    unfold joinText at h
    split at h <;> cases h

mutual
/-- Printable, but for texts next to each other. -/
def Almost (P : Str → Bool) : Tree → Prop
  | .text raw => Stretch raw
  | .elem tag ps bs ts => TagName tag ∧ (∀ b ∈ bs, KeyName b) ∧ (∀ p ∈ ps, KeyName p.1 ∧ 34 ∉ p.2) ∧
      (P tag = true → ¬NeverContent tag) ∧ (P tag = false → ts = [] ∧ (tag = b!"!DOCTYPE" ∨ bs = [] ∨ ps ≠ [])) ∧ AlmostAll P ts
def AlmostAll (P : Str → Bool) : List Tree → Prop
  | [] => True
  | t :: ts => Almost P t ∧ AlmostAll P ts
end

theorem joinText_printable {t : Tree} {ts : List Tree} (ht : t.Printable P) (hs : PrintableAll P ts) : PrintableAll P (joinText t ts) := by
  unfold joinText
  split
  · rename_i a b r
    exact ⟨stretch_append ht hs.1, hs.2.1, fun _ => hs.2.2 rfl⟩
  · rename_i hne
    refine ⟨ht, hs, fun hx t' ts' e => ?_⟩
    cases t with
    | elem => cases hx
    | text a =>
      cases t' with
      | elem => rfl
      | text b => exact (hne a b ts' rfl e).elim

mutual
theorem join_printable : ∀ t : Tree, Almost P t → t.joinTexts.Printable P
  | .text raw, h => h
  | .elem tag ps bs ts, h => by
    obtain ⟨h1, h2, h3, h4, h5, h6⟩ := h
    refine ⟨h1, h2, h3, h4, fun hp => ⟨?_, (h5 hp).2⟩, joinAll_printable ts h6⟩
    rw [(h5 hp).1]; rfl
theorem joinAll_printable : ∀ ts : List Tree, AlmostAll P ts → PrintableAll P (joinTextsAll ts)
  | [], _ => trivial
  | t :: ts, h => joinText_printable (join_printable t h.1) (joinAll_printable ts h.2)
end

end

/-! ## Elements and text are kept -/

theorem labels_joinText (t : Tree) (ts : List Tree) : elementsOf (labelsAll (joinText t ts)) = elementsOf (labelsAll (t :: ts)) ∧
    textOfLabels (labelsAll (joinText t ts)) = textOfLabels (labelsAll (t :: ts)) := by
  unfold joinText
  split
  · simp [labelsAll, Tree.labels, elementsOf, textOfLabels]
  · exact ⟨rfl, rfl⟩

mutual
theorem labels_join : ∀ t : Tree, elementsOf t.joinTexts.labels = elementsOf t.labels ∧ textOfLabels t.joinTexts.labels = textOfLabels t.labels
  | .text raw => ⟨rfl, rfl⟩
  | .elem tag ps bs ts => by
    obtain ⟨h1, h2⟩ := labelsAll_join ts
    constructor
    · simp only [Tree.joinTexts, Tree.labels, elementsOf, List.filterMap_cons] at h1 ⊢
      rw [h1]
    · simp only [Tree.joinTexts, Tree.labels, textOfLabels, List.flatMap_cons] at h2 ⊢
      rw [h2]
theorem labelsAll_join : ∀ ts : List Tree, elementsOf (labelsAll (joinTextsAll ts)) = elementsOf (labelsAll ts) ∧
    textOfLabels (labelsAll (joinTextsAll ts)) = textOfLabels (labelsAll ts)
  | [] => ⟨rfl, rfl⟩
  | t :: ts => by
    obtain ⟨h1, h2⟩ := labelsAll_join ts
    obtain ⟨g1, g2⟩ := labels_join t
    obtain ⟨k1, k2⟩ := labels_joinText t.joinTexts (joinTextsAll ts)
    rw [joinTextsAll, k1, k2]
    constructor
    · simp only [labelsAll, elementsOf, List.filterMap_append] at h1 g1 ⊢; rw [h1, g1]
    · simp only [labelsAll, textOfLabels, List.flatMap_append] at h2 g2 ⊢; rw [h2, g2]
end

/-! ## Pages -/

theorem rows_entries : ∀ t : PTree, t.entries = t.rows.map fun r => (r.1, r.2.1) := by
  intro t; exact PTree.rec (motive_1 := fun t => t.entries = t.rows.map fun r => (r.1, r.2.1))
    (motive_2 := fun ts => entriesAll ts = (rowsAll ts).map fun r => (r.1, r.2.1))
    (fun n l ks ih => by simp only [PTree.entries, PTree.rows, List.map_cons]; rw [ih]) rfl
    (fun t ts h1 h2 => by simp only [entriesAll, rowsAll, List.map_append]; rw [h1, h2]) t

/-- What holds of every row of a page. -/
def RowOK (form : Str → Option Bool) (r : Nat × Label × List Nat) : Prop :=
  r.2.1.Harmless ∧ ∀ tag ps bs, r.2.1 = .elem tag ps bs → (form tag = some true → ¬NeverContent tag) ∧
    (form tag ≠ some true → r.2.2 = [] ∧ (tag = b!"!DOCTYPE" ∨ bs = [] ∨ ps ≠ []))

theorem getD_form (o : Option Bool) : o.getD false = true ↔ o = some true := by cases o with
  | none => simp
  | some b => cases b <;> simp

mutual
theorem plain_almost {form : Str → Option Bool} : ∀ t : PTree, (∀ r ∈ t.rows, RowOK form r ∧ r.2.1 ≠ .root) →
    Almost (fun tag => (form tag).getD false) t.plain
  | .node n (.text raw) ks, h => (h _ (.head _)).1.1
  | .node n .root ks, h => absurd rfl (h _ (.head _)).2
  | .node n (.elem tag ps bs) ks, h => by
    obtain ⟨⟨h1, h2, h3⟩, h4⟩ := (h _ (.head _)).1
    obtain ⟨h5, h6⟩ := h4 tag ps bs rfl
    refine ⟨h1, h2, h3, fun hp => h5 ((getD_form _).1 hp), fun hp => ?_, plainAll_almost ks fun r hr => h r (.tail _ hr)⟩
    have hx := h6 fun e => by have hp : (form tag).getD false = false := hp; rw [e] at hp; cases hp
    have : ks = [] := by simpa using hx.1
    subst this
    exact ⟨rfl, hx.2⟩
theorem plainAll_almost {form : Str → Option Bool} : ∀ ts : List PTree, (∀ r ∈ rowsAll ts, RowOK form r ∧ r.2.1 ≠ .root) →
    AlmostAll (fun tag => (form tag).getD false) (plainAll ts)
  | [], _ => trivial
  | t :: ts, h => ⟨plain_almost t fun r hr => h r (List.mem_append.2 (.inl hr)), plainAll_almost ts fun r hr => h r (List.mem_append.2 (.inr hr))⟩
end

/-! ## Strings stay harmless

`TreeAll`: everything in the tree satisfies `Label.Harmless`. -/

def TreeAll (t : PTree) : Prop := ∀ e ∈ t.entries, e.2.Harmless
def TreesAll (ts : List PTree) : Prop := ∀ e ∈ entriesAll ts, e.2.Harmless

theorem treeAll_node {n : Nat} {l : Label} {ks : List PTree} : TreeAll (.node n l ks) ↔ l.Harmless ∧ TreesAll ks := by
  simp [TreeAll, TreesAll, PTree.entries]

theorem treesAll_nil : TreesAll [] := by simp [TreesAll, entriesAll]

theorem treesAll_cons {t : PTree} {ts : List PTree} : TreesAll (t :: ts) ↔ TreeAll t ∧ TreesAll ts := by
  simp only [TreesAll, TreeAll, entriesAll, List.mem_append]
  exact ⟨fun h => ⟨fun e he => h e (.inl he), fun e he => h e (.inr he)⟩, fun h e he => he.elim (h.1 e) (h.2 e)⟩

theorem treesAll_iff {ts : List PTree} : TreesAll ts ↔ ∀ t ∈ ts, TreeAll t := by
  induction ts with
  | nil => simp [treesAll_nil]
  | cons t ts ih => rw [treesAll_cons, ih]; simp

mutual
theorem number_all : ∀ (t : Tree) (k : Nat), (∀ l ∈ t.labels, l.Harmless) → TreeAll (t.number k)
  | .text raw, k, h => treeAll_node.2 ⟨h _ (.head _), treesAll_nil⟩
  | .elem tag ps bs ts, k, h => treeAll_node.2 ⟨h _ (.head _), numberAll_all ts _ fun l hl => h l (.tail _ hl)⟩
theorem numberAll_all : ∀ (ts : List Tree) (k : Nat), (∀ l ∈ labelsAll ts, l.Harmless) → TreesAll (numberAll k ts)
  | [], _, _ => treesAll_nil
  | t :: ts, k, h => treesAll_cons.2 ⟨number_all t k fun l hl => h l (List.mem_append.2 (.inl hl)),
      numberAll_all ts _ fun l hl => h l (List.mem_append.2 (.inr hl))⟩
end

mutual
theorem within_all {p : Nat} {f : List PTree → List PTree} (hf : ∀ ks, TreesAll ks → TreesAll (f ks)) : ∀ t : PTree, TreeAll t → TreeAll (t.within p f)
  | .node n l ks, h => by
    obtain ⟨h1, h2⟩ := treeAll_node.1 h
    simp only [PTree.within]
    refine treeAll_node.2 ⟨h1, ?_⟩
    split
    · exact hf ks h2
    · exact withinAll_all hf ks h2
theorem withinAll_all {p : Nat} {f : List PTree → List PTree} (hf : ∀ ks, TreesAll ks → TreesAll (f ks)) :
    ∀ ts : List PTree, TreesAll ts → TreesAll (withinAll p f ts)
  | [], _ => treesAll_nil
  | t :: ts, h => by
    obtain ⟨h1, h2⟩ := treesAll_cons.1 h
    exact treesAll_cons.2 ⟨within_all hf t h1, withinAll_all hf ts h2⟩
end

mutual
theorem relabel_all {n : Nat} {f : Label → Label} (hf : ∀ l, l.Harmless → (f l).Harmless) : ∀ t : PTree, TreeAll t → TreeAll (t.relabel n f)
  | .node m l ks, h => by
    obtain ⟨h1, h2⟩ := treeAll_node.1 h
    simp only [PTree.relabel]
    refine treeAll_node.2 ⟨?_, relabelAll_all hf ks h2⟩
    split
    · exact hf l h1
    · exact h1
theorem relabelAll_all {n : Nat} {f : Label → Label} (hf : ∀ l, l.Harmless → (f l).Harmless) :
    ∀ ts : List PTree, TreesAll ts → TreesAll (relabelAll n f ts)
  | [], _ => treesAll_nil
  | t :: ts, h => by
    obtain ⟨h1, h2⟩ := treesAll_cons.1 h
    exact treesAll_cons.2 ⟨relabel_all hf t h1, relabelAll_all hf ts h2⟩
end

theorem around_all {n : Nat} : ∀ {ts : List PTree} {x : List PTree × List PTree}, around n ts = some x → TreesAll ts → TreesAll x.1 ∧ TreesAll x.2
  | [], _, h, _ => by simp [around] at h
  | t :: ts, x, h, hk => by
    obtain ⟨h1, h2⟩ := treesAll_cons.1 hk
    simp only [around] at h
    split at h
    · cases h; exact ⟨treesAll_nil, h2⟩
    · obtain ⟨y, hy, rfl⟩ := Option.map_eq_some_iff.1 h
      obtain ⟨g1, g2⟩ := around_all hy h2
      exact ⟨treesAll_cons.2 ⟨h1, g1⟩, g2⟩

mutual
theorem instead_all {n : Nat} {f : List PTree → List PTree → List PTree} (hf : ∀ a b, TreesAll a → TreesAll b → TreesAll (f a b)) :
    ∀ t : PTree, TreeAll t → TreeAll (t.instead n f)
  | .node m l ks, h => by
    obtain ⟨h1, h2⟩ := treeAll_node.1 h
    simp only [PTree.instead]
    refine treeAll_node.2 ⟨h1, ?_⟩
    split
    · rename_i x hx
      obtain ⟨g1, g2⟩ := around_all hx h2
      exact hf _ _ g1 g2
    · exact insteadAll_all hf ks h2
theorem insteadAll_all {n : Nat} {f : List PTree → List PTree → List PTree} (hf : ∀ a b, TreesAll a → TreesAll b → TreesAll (f a b)) :
    ∀ ts : List PTree, TreesAll ts → TreesAll (insteadAll n f ts)
  | [], _ => treesAll_nil
  | t :: ts, h => by
    obtain ⟨h1, h2⟩ := treesAll_cons.1 h
    exact treesAll_cons.2 ⟨instead_all hf t h1, insteadAll_all hf ts h2⟩
end

theorem mergeLeft_all {a b : List PTree} (ha : TreesAll a) (hb : TreesAll b) : TreesAll (mergeLeft a b).1 ∧ TreesAll (mergeLeft a b).2 := by
  unfold mergeLeft
  split
  · rename_i k x ks m y z rest hl
    have ha' := treesAll_iff.1 ha
    obtain ⟨h1, h2⟩ := treeAll_node.1 (ha' _ (List.mem_of_getLast? hl))
    obtain ⟨h3, h4⟩ := treesAll_cons.1 hb
    refine ⟨treesAll_iff.2 fun t ht => ?_, h4⟩
    rcases List.mem_append.1 ht with ht | ht
    · exact ha' t (List.dropLast_subset _ ht)
    · simp only [List.mem_singleton] at ht
      subst ht
      exact treeAll_node.2 ⟨stretch_join h1 (treeAll_node.1 h3).1, h2⟩
  · exact ⟨ha, hb⟩

theorem mergeRight_all {a b : List PTree} (ha : TreesAll a) (hb : TreesAll b) : TreesAll (mergeRight a b).1 ∧ TreesAll (mergeRight a b).2 := by
  unfold mergeRight
  split
  · rename_i m y z k x ks rest hl
    have ha' := treesAll_iff.1 ha
    obtain ⟨h1, h2⟩ := treeAll_node.1 (ha' _ (List.mem_of_getLast? hl))
    obtain ⟨h3, h4⟩ := treesAll_cons.1 hb
    obtain ⟨h5, h6⟩ := treeAll_node.1 h3
    exact ⟨treesAll_iff.2 fun t ht => ha' t (List.dropLast_subset _ ht), treesAll_cons.2 ⟨treeAll_node.2 ⟨stretch_join h1 h5, h6⟩, h4⟩⟩
  · exact ⟨ha, hb⟩

theorem treesAll_append {a b : List PTree} (ha : TreesAll a) (hb : TreesAll b) : TreesAll (a ++ b) :=
  treesAll_iff.2 fun t ht => (List.mem_append.1 ht).elim (treesAll_iff.1 ha t) (treesAll_iff.1 hb t)

theorem between_all {a b c : List PTree} (ha : TreesAll a) (hb : TreesAll b) (hc : TreesAll c) : TreesAll (between a b c) := by
  obtain ⟨h1, h2⟩ := mergeLeft_all ha hb
  obtain ⟨h3, h4⟩ := mergeRight_all h2 hc
  exact treesAll_append (treesAll_append h1 h3) h4

theorem attr_all {answer : Nat → Bool} {op : AttrOp} (h : (Op.attr op).Harmless answer) (l : Label) (hl : l.Harmless) : (l.attr op).Harmless := by
  cases l with
  | root => exact hl
  | text raw => exact hl
  | elem tag ps bs =>
    obtain ⟨h1, h3, h2⟩ := hl
    cases op with
    | add n k v =>
      refine ⟨h1, h3, fun p hp => ?_⟩
      rcases List.mem_append.1 hp with hp | hp
      · exact h2 p hp
      · simp only [List.mem_singleton] at hp; subst hp; exact h
    | addBool n b =>
      refine ⟨h1, fun p hp => ?_, h2⟩
      rcases List.mem_append.1 hp with hp | hp
      · exact h3 p hp
      · simp only [List.mem_singleton] at hp; subst hp; exact h
    | set n k v =>
      refine ⟨h1, h3, fun p hp => ?_⟩
      rcases setFirst_mem hp with hp | rfl
      · exact h2 p hp
      · exact h
    | remove n k => exact ⟨h1, h3, fun p hp => h2 p (removeFirst_mem hp)⟩
    | removeBool n b => exact ⟨h1, fun p hp => h3 p (List.mem_of_mem_erase hp), h2⟩

theorem addText_all {t : Str} {e : Bool} (h : Stretch t) (l : Label) (hl : l.Harmless) : (l.addText t e).Harmless := by
  cases l with
  | root => exact hl
  | elem tag ps bs => exact hl
  | text raw =>
    cases e
    · exact stretch_join h hl
    · exact stretch_join hl h

theorem rename_all {t : Str} (h : TagName t) (l : Label) (hl : l.Harmless) : (l.rename t).Harmless := by
  cases l with
  | root => exact hl
  | text raw => exact hl
  | elem tag ps bs => exact ⟨h, hl.2⟩

theorem brings_all {answer : Nat → Bool} {op : Op} (h : op.Harmless answer) : ∀ l ∈ labelsAll (op.brings answer), l.Harmless := by
  cases op <;> first
    | (intro l hl; simp only [Op.brings, labelsAll, Tree.labels, List.append_nil, List.mem_singleton] at hl; subst hl; exact h)
    | exact h
    | simp [Op.brings, labelsAll]

theorem step_all {answer : Nat → Bool} {op : Op} {pg : Page} (h : op.Harmless answer) (hp : pg.Harmless) : (pg.step answer op).Harmless := by
  have hn : TreesAll (numberAll pg.next (op.brings answer)) := numberAll_all _ _ (brings_all h)
  show TreeAll (op.on _ pg.root)
  have hp : TreeAll pg.root := hp
  generalize numberAll pg.next (op.brings answer) = new at hn
  cases op with
  | attr op => exact relabel_all (attr_all h) _ hp
  | addText n t e => exact relabel_all (addText_all h) _ hp
  | setTag t n p => exact relabel_all (rename_all h) _ hp
  | setText n t => exact within_all (fun _ _ => hn) _ hp
  | removeNode n => exact instead_all (fun _ _ => treesAll_append) _ hp
  | removeChildren n => exact within_all (fun _ _ => treesAll_nil) _ hp
  | appendDoc p d => exact within_all (fun _ hk => between_all hk hn treesAll_nil) _ hp
  | appendText p d => exact within_all (fun _ hk => between_all hk hn treesAll_nil) _ hp
  | appendHTML p d => exact within_all (fun _ hk => between_all hk hn treesAll_nil) _ hp
  | prependDoc p d => exact within_all (fun _ hk => between_all treesAll_nil hn hk) _ hp
  | prependText p d => exact within_all (fun _ hk => between_all treesAll_nil hn hk) _ hp
  | prependHTML p d => exact within_all (fun _ hk => between_all treesAll_nil hn hk) _ hp
  | replaceDoc n d => exact instead_all (fun _ _ ha hb => between_all ha hn hb) _ hp
  | replaceText n d => exact instead_all (fun _ _ ha hb => between_all ha hn hb) _ hp
  | replaceHTML n d => exact instead_all (fun _ _ ha hb => between_all ha hn hb) _ hp

theorem call_all {answer : Nat → Bool} {op : Op} {pg : Page} (h : op.Harmless answer) (hp : pg.Harmless) : (pg.call answer op).Harmless := by
  unfold Page.call
  split
  · split
    · exact hp
    · exact step_all h hp
  · exact step_all h hp

theorem calls_all : ∀ (ops : List (Op × (Nat → Bool))) {pg : Page}, (∀ o ∈ ops, o.1.Harmless o.2) → pg.Harmless → (pg.calls ops).Harmless
  | [], _, _, hp => hp
  | o :: ops, _, h, hp => calls_all ops (fun x hx => h x (List.mem_cons_of_mem _ hx)) (call_all (h o (by simp)) hp)

end Flo.Inj
