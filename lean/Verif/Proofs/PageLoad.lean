import Verif.Proofs.PageStep
import Verif.Props.Reference
/-!
# The page a document starts as, and what is printed for a page (C95)
-/
namespace Flo
open Spec

section
variable {d : Dom} {ch : Nat → List Nat} {N : Nat}

mutual
theorem Rep.toC (hk : ∀ q, q ≠ 0 → kids d q = ch q) (hc : ∀ q c, c ∈ ch q → 0 < c ∧ c < N) :
    ∀ (t : Tree) (n : Nat), 0 < n → n < N → Rep d t n → RepC d ch 0 N t n
  | .text raw, n, h1, h2, h => by
    simp only [Rep, RepC] at h ⊢
    exact ⟨h1, h2, h.1, by rw [← hk n (by omega)]; exact h.2⟩
  | .elem tag ps bs ts, n, h1, h2, h => by
    simp only [Rep, RepC] at h ⊢
    refine ⟨h1, h2, h.1, h.2.1, h.2.2.1, ?_⟩
    rw [← hk n (by omega)]
    refine RepL.toC hk hc ts _ (fun c hm => hc n c ?_) h.2.2.2
    rw [← hk n (by omega)]; exact hm
theorem RepL.toC (hk : ∀ q, q ≠ 0 → kids d q = ch q) (hc : ∀ q c, c ∈ ch q → 0 < c ∧ c < N) :
    ∀ (ts : List Tree) (ns : List Nat), (∀ n ∈ ns, 0 < n ∧ n < N) → RepL d ts ns → RepCL d ch 0 N ts ns
  | [], [], _, _ => by simp [RepCL]
  | [], _ :: _, _, h => by simp [RepL] at h
  | _ :: _, [], _, h => by simp [RepL] at h
  | t :: ts, n :: ns, hn, h => by
    simp only [RepL, RepCL] at h ⊢
    have := hn n (by simp)
    exact ⟨Rep.toC hk hc t n this.1 this.2 h.1, RepL.toC hk hc ts ns (fun m hm => hn m (by simp [hm])) h.2⟩
end

theorem shows_load {s : Str} (h : createDom s = .ok (some d)) : Shows d (Page.load s) := by
  obtain ⟨ts, ho, hts⟩ := C93_returned s d h
  have ht : ts = treesOf (docTokens s).1 := by
    unfold outcome at ho
    split at ho
    · cases ho
    · split at ho
      · cases ho
      · cases ho; rfl
  have hrep := (hts ts).mpr rfl
  have hf := C74_every_input s d h
  obtain ⟨b, ch, rfl, hb⟩ := createDom_ok h
  have hk : ∀ q, q ≠ 0 → kids b.dom q = ch q := fun q hq => hb.linked.kids_eq hq
  have hrng : ∀ q c, c ∈ ch q → 0 < c ∧ c < b.dom.nodes.length := fun q c hc => by
    have := hb.linked.range q c hc; omega
  have h2 := hb.linked.two
  rw [hk 1 (by omega)] at hrep
  have hc := RepL.toC hk hrng ts _ (fun n hn => hrng 1 n hn) hrep
  have ho := hb.order
  rw [pre_eq hb.linked.up (by omega)] at ho
  have ho := (List.cons.inj ho).2
  obtain ⟨n1, n2, n3, n4⟩ := numAll_of_order hb.linked.up ts (ch 1) [] _ _ hc (by rw [List.append_nil]; exact ho)
  have hd : Dom.init.nodes.length = 2 := rfl
  rw [hd] at n1 n2 n3 n4
  have hsz : b.dom.nodes.length = 2 + sizeAll ts := by
    have := congrArg List.length n3
    simp at this; omega
  subst ht
  refine ⟨hsz, hf, ⟨_, rfl⟩, ?_⟩
  show PTree.Shown _ (.node 1 .root _)
  rw [PTree.Shown]
  refine ⟨rfl, by rw [hk 1 (by omega)]; exact n1, (fun hx => by simp [Label.isText] at hx), ?_⟩
  exact shownAll_of_rep _ 2 _ hrep n1 (numAll_ge (N := 1) (fun q hq => hk q (by omega)) _ 2 (by omega) n2)

mutual
theorem rep_plain (hi : DomI d (kids d)) : ∀ (t : PTree), t.Shown d → t.id ≠ rootID → Rep d t.plain t.id
  | .node n .root ks, h, hn => by
    simp only [PTree.Shown] at h
    exact absurd h.1 hn
  | .node n (.text raw) ks, h, hn => by
    simp only [PTree.Shown] at h
    obtain ⟨h1, h2, h3, _⟩ := h
    have := h3 rfl
    subst this
    simp only [PTree.plain, Rep]
    exact ⟨h1, h2⟩
  | .node n (.elem tag ps bs) ks, h, hn => by
    simp only [PTree.Shown] at h
    obtain ⟨h1, h2, h3, h4⟩ := h
    simp only [PTree.plain, Rep]
    refine ⟨h1.1, h1.2.1, h1.2.2, ?_⟩
    show RepL d (plainAll ks) (kids d n)
    rw [h2]
    refine repL_plain hi ks h4 (fun t ht => ?_)
    have := hi.linked.range n t.id (by rw [h2]; exact List.mem_map_of_mem ht)
    show t.id ≠ 1
    omega
theorem repL_plain (hi : DomI d (kids d)) : ∀ (ts : List PTree), ShownAll d ts → (∀ t ∈ ts, t.id ≠ rootID) →
    RepL d (plainAll ts) (ts.map PTree.id)
  | [], _, _ => by simp [plainAll, RepL]
  | t :: ts, h, hn => by
    simp only [ShownAll, plainAll, List.map_cons, RepL] at h ⊢
    exact ⟨rep_plain hi t h.1 (hn t (by simp)), repL_plain hi ts h.2 (fun t ht => hn t (by simp [ht]))⟩
end

theorem shows_trees (hi : DomI d (kids d)) {pg : Page} (hs : Shows d pg) : RepL d pg.trees (kids d 1) := by
  obtain ⟨ks, e⟩ := hs.root
  have := hs.tree
  rw [e, PTree.Shown] at this
  obtain ⟨_, h2, _, h4⟩ := this
  have h2 : kids d 1 = _ := h2
  unfold Page.trees
  rw [e, h2]
  refine repL_plain hi ks h4 (fun t ht => ?_)
  have := hi.linked.range 1 t.id (by rw [h2]; exact List.mem_map_of_mem ht)
  show t.id ≠ 1
  omega

theorem shows_print (hi : DomI d (kids d)) {pg : Page} (hs : Shows d pg) : printHTML d = .ok pg.print := by
  rw [printHTML_forest hi (shows_trees hi hs)]
  have e : pairedTag d = fun tag => (firstForm pg.forms tag).getD false := by
    funext tag
    rw [← hs.forms tag]
    unfold pairedTag formOf firstForm
    cases (d.tagReg.drop 1).find? (fun r => r.1 == tag) <;> rfl
  rw [e]; rfl

end
end Flo
