import Verif.Proofs.PageEdit
import Verif.Props.RefFrag
import Verif.Props.Room
import Verif.Props.Attrs
import Verif.Proofs.Report
/-!
# Every editing function is an operation on the page (C95)
-/
namespace Flo
open Spec

section
variable {d d' : Dom}

/-! ## Nodes of the page are nodes of the DOM -/

mutual
theorem shown_entry (hi : DomI d (kids d)) : ∀ (t : PTree), t.Shown d → IsNode d t.id → ∀ n l, (n, l) ∈ t.entries →
    NodeIs d n l ∧ IsNode d n
  | .node m lm ks, h, hm, n, l, hx => by
    simp only [PTree.Shown, PTree.entries, List.mem_cons] at h hx
    have hm : IsNode d m := hm
    rcases hx with e | hx
    · cases e; exact ⟨h.1, hm⟩
    · refine shownAll_entry hi ks h.2.2.2 (fun t ht => ?_) n l hx
      have := hi.linked.range m t.id (by rw [h.2.1]; exact List.mem_map_of_mem ht)
      exact ⟨by omega, this.2.2⟩
theorem shownAll_entry (hi : DomI d (kids d)) : ∀ (ts : List PTree), ShownAll d ts → (∀ t ∈ ts, IsNode d t.id) → ∀ n l, (n, l) ∈ entriesAll ts →
    NodeIs d n l ∧ IsNode d n
  | [], _, _, n, l, hx => by simp [entriesAll] at hx
  | t :: ts, h, hm, n, l, hx => by
    simp only [ShownAll, entriesAll, List.mem_append] at h hx
    rcases hx with hx | hx
    · exact shown_entry hi t h.1 (hm t (by simp)) n l hx
    · exact shownAll_entry hi ts h.2 (fun t ht => hm t (by simp [ht])) n l hx
end

mutual
theorem shown_siblings : ∀ (t : PTree), t.Shown d → ∀ n x, t.siblings n = some x →
    ∃ q, kids d q = x.1.map PTree.id ++ n :: x.2.map PTree.id ∧ ShownAll d x.1 ∧ ShownAll d x.2
  | .node m lm ks, h, n, x, hx => by
    simp only [PTree.Shown, PTree.siblings] at h hx
    cases ha : around n ks with
    | some y =>
      rw [ha] at hx
      cases hx
      obtain ⟨t, e1, e2⟩ := around_some ha
      have h4 := h.2.2.2
      rw [e1, shownAll_append] at h4
      simp only [ShownAll] at h4
      refine ⟨m, ?_, h4.1, h4.2.2⟩
      rw [h.2.1]
      conv_lhs => rw [e1]
      rw [List.map_append, List.map_cons, e2]
    | none =>
      rw [ha] at hx
      exact shownAll_siblings ks h.2.2.2 n x hx
theorem shownAll_siblings : ∀ (ts : List PTree), ShownAll d ts → ∀ n x, siblingsAll n ts = some x →
    ∃ q, kids d q = x.1.map PTree.id ++ n :: x.2.map PTree.id ∧ ShownAll d x.1 ∧ ShownAll d x.2
  | [], _, n, x, hx => by simp [siblingsAll] at hx
  | t :: ts, h, n, x, hx => by
    simp only [ShownAll, siblingsAll] at h hx
    cases ha : t.siblings n with
    | some y =>
      rw [ha] at hx; cases hx
      exact shown_siblings t h.1 n _ ha
    | none =>
      rw [ha] at hx
      exact shownAll_siblings ts h.2 n x hx
end

theorem shown_text (hi : DomI d (kids d)) {t : PTree} (h : t.Shown d) : t.isText = true ↔ ∃ s, textOf d t.id = some s := by
  cases t with
  | node n l ks =>
    simp only [PTree.Shown] at h
    show l.isText = true ↔ ∃ s, textOf d n = some s
    rw [h.1.isText hi]
    constructor
    · rintro ⟨s, h1, _⟩; exact ⟨s, h1⟩
    · rintro ⟨s, h1⟩; exact ⟨s, h1, h.1.ofText hi h1⟩

theorem head_text (hi : DomI d (kids d)) {b : List PTree} (h : ShownAll d b) :
    (b.head?.any PTree.isText) = true ↔ ∃ s, textOf d ((b.map PTree.id).headD 0) = some s := by
  cases b with
  | nil => simp [hi.text_zero]
  | cons t b =>
    simp only [ShownAll] at h
    simpa using shown_text hi h.1

theorem last_text (hi : DomI d (kids d)) {b : List PTree} (h : ShownAll d b) :
    (b.getLast?.any PTree.isText) = true ↔ ∃ s, textOf d ((b.map PTree.id).getLastD 0) = some s := by
  rcases List.eq_nil_or_concat' b with rfl | ⟨a, t, rfl⟩
  · simp [hi.text_zero]
  · rw [shownAll_append] at h
    simp only [ShownAll] at h
    simpa using shown_text hi h.2.1

/-! ## Operations on what a node is -/

theorem page_attr (hi : DomI d (kids d)) (h0 : kids d 0 = []) (op : AttrOp) (hn : IsNode d op.node) (hr : runAttr op d = .ok d') {t : PTree} (ht : t.Shown d)
    (hid : t.id = rootID) : (t.relabel op.node (Label.attr op)).Shown d' ∧ d'.nodes.length = d.nodes.length := by
  obtain ⟨s1, s2, s3⟩ := runAttr_store hi.names op hn.1 hr
  obtain ⟨f, g, a⟩ := (runAttr_post hi op hn).elim hr
  obtain ⟨s4, s5⟩ := s3 ⟨pairs d, bools d⟩ (fun _ _ => rfl) (fun _ _ => rfl)
  have hk := (a.domI hi hn.2).kidsFun h0
  refine ⟨shown_relabel (O := fun q => q ≠ 0) (fun q hq => ⟨fun hqn => a.same hq hqn, by rw [hk], fun c hc => ?_⟩) (fun l hl => ?_) (fun l => ?_) t ht
    (by rw [hid]; show 1 ≠ 0; omega), by rw [s1.nodes]⟩
  · have := hi.linked.range q c hc; omega
  · cases l with
    | root => exact hl
    | text raw =>
      show textOf d' _ = _
      have : textOf d' op.node = textOf d op.node := by unfold textOf; rw [s1.nodes]
      rw [this]; exact hl
    | elem tag ps bs =>
      obtain ⟨e1, e2, e3⟩ : _ ∧ _ ∧ _ := hl
      have htag : tagOf d' op.node = some tag := by
        rw [← e1]; unfold tagOf; rw [s1.nodes, s1.tagReg]
      have h4 := s4 op.node hn.1
      have h5 := s5 op.node hn.1
      cases op <;>
        (simp only [AttrOp.node, Store.apply, Store.at, if_true, id_eq] at h4 h5 e2 e3 htag ⊢
         rw [e2] at h4
         rw [e3] at h5
         exact ⟨htag, h4, h5⟩)
  · cases l <;> cases op <;> rfl

theorem page_addText (hi : DomI d (kids d)) (h0 : kids d 0 = []) {n : Nat} {raw : Str} (hn : textOf d n = some raw) (text : Str) (e : Bool)
    (hr : addTextToTextNode n text e d = .ok d') {t : PTree} (ht : t.Shown d)
    : (t.relabel n (Label.addText text e)).Shown d' ∧ d'.nodes.length = d.nodes.length := by
  obtain ⟨d1, e1, i1, t1, s1, l1⟩ := addText_spec hi hn text e
  rw [hr] at e1; cases e1
  have hk := i1.kidsFun h0
  refine ⟨shown_relabel (O := fun _ => True) (fun q _ => ⟨fun hqn => s1 q hqn, by rw [hk], fun c hc => trivial⟩) (fun l hl => ?_) (fun l => by cases l <;> rfl) t ht trivial, l1⟩
  have := hl.ofText hi hn
  subst this
  show textOf d' n = _
  rw [t1]

theorem page_setTag (hi : DomI d (kids d)) (h0 : kids d 0 = []) {n : Nat} {tag0 : Str} (hn : tagOf d n = some tag0) (tag : Str) (can : Bool)
    (hr : setTag tag n can d = .ok d') {t : PTree} (ht : t.Shown d)
    : (t.relabel n (Label.rename tag)).Shown d' ∧ d'.nodes.length = d.nodes.length := by
  have hty : typeOf d n = some .document := typeOf_tag hn
  obtain ⟨i1, t1, s1, p1, l1⟩ := setTag_inv hi hty hr
  have hk := i1.kidsFun h0
  refine ⟨shown_relabel (O := fun _ => True) (fun q _ => ⟨fun hqn => s1 q hqn, by rw [hk], fun c hc => trivial⟩) (fun l hl => ?_) (fun l => by cases l <;> rfl) t ht trivial, l1⟩
  cases l with
  | root =>
    exact hl
  | text raw =>
    have hl : textOf d n = some raw := hl
    rw [typeOf_of_text hl] at hty; cases hty
  | elem tg ps bs =>
    obtain ⟨e1, e2, e3⟩ : _ ∧ _ ∧ _ := hl
    exact ⟨t1, by rw [p1.1]; exact e2, by rw [p1.2]; exact e3⟩

/-! ## Removing -/

theorem page_removeNode (hi : DomI d (kids d)) (h0 : kids d 0 = []) {p n : Nat} (hn : n ∈ kids d p) (hr : removeNode n d = .ok d') {t : PTree}
    (ht : t.Shown d) (hid : t.id = rootID) :
    (t.instead n (fun a b => a ++ b)).Shown d' ∧ d'.nodes.length = d.nodes.length := by
  obtain ⟨d1, e1, i1, s1, g1, l1⟩ := dropAll hi hn
  rw [hr] at e1; cases e1
  have hrn := hi.linked.range p n hn
  have hpre := preorder_kids hi (p := n) ⟨by omega, hrn.2.2⟩
  have hk := i1.kidsFun (dropTree_nil h0)
  rw [← hpre] at s1
  have hdrop : ∀ q, q ∉ preorder d n → kids d' q = (kids d q).erase n := by
    intro q hq
    rw [hk]; unfold dropTree
    rw [if_neg (by rw [← hpre]; exact hq)]
  have le : LocalEdit d d' p (fun m => m ∈ preorder d n) := by
    refine LocalEdit.drop hi hn h0 (fun q hqp hq => ?_) (fun m _ _ hm => s1 m hm)
    rw [hdrop q hq, List.erase_of_not_mem (fun hx => hqp (hi.linked.uniq _ _ _ hx hn))]
  refine ⟨le.instead hn (fun a u b hks hu hA hB => ?_) ht hid, l1⟩
  have hnd := hi.linked.nodup p
  have hfree : ∀ t ∈ a ++ b, t.id ∈ kids d p ∧ t.id ∉ preorder d n := by
    intro t ht
    have hm : t.id ∈ kids d p := by
      rw [hks]
      refine List.mem_map_of_mem ?_
      simp only [List.mem_append, List.mem_cons] at ht ⊢
      tauto
    refine ⟨hm, sibling_free hi hn hm fun e => ?_⟩
    rw [hks, List.map_append, List.map_cons, hu, List.nodup_append, List.nodup_cons] at hnd
    rcases List.mem_append.mp ht with h | h
    · exact hnd.2.2 t.id (List.mem_map_of_mem h) n (by simp) e
    · exact hnd.2.1.1 (e ▸ List.mem_map_of_mem h)
  refine ⟨?_, ?_⟩
  · rw [hdrop p le.at0.2.2.1, hks, List.map_append, List.map_cons, hu, List.map_append]
    rw [hks, List.map_append, List.map_cons, hu, List.nodup_append] at hnd
    rw [List.erase_append_right _ (fun hx => hnd.2.2 n hx n (by simp) rfl)]
    simp
  · rw [shownAll_iff]
    intro t ht
    obtain ⟨f1, f2⟩ := hfree t ht
    have hsh : t.Shown d := by
      rcases List.mem_append.mp ht with h | h
      · exact shownAll_iff.mp hA t h
      · exact shownAll_iff.mp hB t h
    cases t with
    | node m l ks =>
      obtain ⟨k1, k2⟩ := le.below hsh f1 f2
      simp only [PTree.Shown] at hsh ⊢
      exact ⟨hsh.1.same (s1 m f2), k1, hsh.2.2.1, k2⟩

theorem page_removeChildren (hi : DomI d (kids d)) (h0 : kids d 0 = []) {n : Nat} (hn : IsNode d n) (hr : removeChildren n d = .ok d') {t : PTree}
    (ht : t.Shown d) (hid : t.id = rootID) (hnt : ∀ l, NodeIs d n l → l.isText = false) :
    (t.within n (fun _ => [])).Shown d' ∧ d'.nodes.length = d.nodes.length := by
  obtain ⟨d1, e1, i1, s1, g1, l1⟩ := dropKids hi hn.1 hn.2
  rw [hr] at e1; cases e1
  have hpre := preorder_kids hi hn
  have hk := i1.kidsFun (dropBelow_nil h0)
  rw [← hpre] at s1
  have le : LocalEdit d d' n (fun m => m ∈ (preorder d n).tail) := by
    refine LocalEdit.clear hi hn (fun q hq => ?_) (fun m _ hm => s1 m hm)
    rw [hk]; unfold dropBelow
    rw [if_neg (by rw [← hpre]; exact hq)]
  refine ⟨le.within (f := fun _ => []) hnt (fun ks hks hall => ⟨?_, trivial⟩) ht hid, l1⟩
  rw [hk]; unfold dropBelow
  rw [if_pos (mem_pre_self hn.2)]; rfl

theorem page_setText (hi : DomI d (kids d)) (h0 : kids d 0 = []) {n : Nat} (hn : IsNode d n) (text : Str) (hr : setTextContent n text d = .ok d')
    {t : PTree} (ht : t.Shown d) (hid : t.id = rootID) (hnt : ∀ l, NodeIs d n l → l.isText = false) :
    (t.within n (fun _ => numberAll d.nodes.length [.text text])).Shown d' ∧ d'.nodes.length = d.nodes.length + 1 := by
  obtain ⟨i1, t1, p1, s1, g1, l1⟩ := (setText_spec hi h0 hn.1 hn.2 text).elim hr
  have hpre := preorder_kids hi hn
  have hz : upd (dropBelow d.nodes.length (kids d) n) n [d.nodes.length] 0 = [] := by
    rw [upd_ne (Ne.symm hn.1)]; exact dropBelow_nil h0
  have hk := i1.kidsFun hz
  rw [← hpre] at s1
  obtain ⟨l, e, hl⟩ := preorder_cons hi hn
  have le : LocalEdit d d' n (fun m => m ∈ (preorder d n).tail) := by
    refine LocalEdit.clear hi hn (fun q hq => ?_) (fun m hm hx => s1 m hx (by omega))
    have hqn : q ≠ n := by rintro rfl; rw [e] at hq; simp at hq
    rw [hk, upd_ne hqn]; unfold dropBelow
    rw [if_neg (by rw [← hpre]; exact hq)]
  refine ⟨le.within hnt (fun ks hks hall => ⟨?_, ?_⟩) ht hid, l1⟩
  · rw [hk, upd_same]; rfl
  · simp only [numberAll, Tree.number, ShownAll, PTree.Shown, and_true]
    refine ⟨t1, ?_, fun _ => trivial⟩
    have := hn.2
    rw [hk, upd_ne (by omega)]
    unfold dropBelow
    have hnil : kids d d.nodes.length = [] := by
      rw [List.eq_nil_iff_forall_not_mem]
      intro c hc
      have := hi.linked.range _ _ hc; omega
    split
    · rfl
    · exact hnil

end
end Flo
