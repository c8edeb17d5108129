import Verif.Proofs.ReplaceTwo
import Verif.Props.Nav
/-!
# Inserting HTML given as a string (C23, C24, C27, C28)

`Fragment html d F`: parsed on its own, `html` is the document with the top-level trees `F`, and the fragment parse
into `d` is accepted (see `Spec/Fragment.lean`).  `RepL d' F1 new`: the nodes `new` of `d'` are the roots of exactly
the trees `F1`.
-/
namespace Flo
open Spec

/-- `appendHTMLFromString`: a leading text of the fragment is merged into a text that is the last child (`MergeFirst`);
the other trees of the fragment become, in order, new children after the existing ones; the node returned is the
first new child, or the extended text if there is none.  No other child list and no other node changes. -/
theorem C23_appendHTML (d : Dom) (h : Reachable d) (p : Nat) (hp : IsNode d p) (html : Str) (F : List Tree)
    (hf : Fragment html d F) (junk : Nat → Out Bool) :
    ∃ id d' F1 new, appendHTML junk p html d = .ok (id, d') ∧ MergeFirst d d' ((kids d p).getLastD 0) F F1 ∧
      kids d' p = kids d p ++ new ∧ RepL d' F1 new ∧ (∀ n ∈ new, d.nodes.length ≤ n) ∧
      id = new.headD ((kids d p).getLastD 0) ∧
      (∀ q, q < d.nodes.length → q ≠ p → kids d' q = kids d q) ∧
      (∀ m, m < d.nodes.length → m ≠ (kids d p).getLastD 0 → SameNode d d' m) := by
  obtain ⟨hi, h0⟩ := reach_domI h
  exact appendHTML_frag hi h0 (hf.parse hi h0 junk) hp.1 hp.2

/-- `prependHTMLFromString`: the same before the existing children, merging a trailing text of the fragment with a
text that is the first child. -/
theorem C24_prependHTML (d : Dom) (h : Reachable d) (p : Nat) (hp : IsNode d p) (html : Str) (F : List Tree)
    (hf : Fragment html d F) (junk : Nat → Out Bool) :
    ∃ id d' F1 new, prependHTML junk p html d = .ok (id, d') ∧ MergeLast d d' ((kids d p).headD 0) F F1 ∧
      kids d' p = new ++ kids d p ∧ RepL d' F1 new ∧ (∀ n ∈ new, d.nodes.length ≤ n) ∧
      id = new.headD ((kids d p).headD 0) ∧
      (∀ q, q < d.nodes.length → q ≠ p → kids d' q = kids d q) ∧
      (∀ m, m < d.nodes.length → m ≠ (kids d p).headD 0 → SameNode d d' m) := by
  obtain ⟨hi, h0⟩ := reach_domI h
  exact prependHTML_frag hi h0 (hf.parse hi h0 junk) hp.1 hp.2

/-- A concrete fragment: a text, an element with a child, a text. -/
def exampleFrag : List Tree :=
  [.text b!"one", .elem b!"i" [(b!"k", b!"v")] [b!"q"] [.text b!"two"], .text b!"three"]

/-- Deciding `Rep`, for the examples. -/
def repB (d : Dom) : Nat → Tree → Nat → Bool
  | 0, _, _ => false
  | _ + 1, .text raw, n => decide (textOf d n = some raw ∧ kids d n = [])
  | f + 1, .elem tag ps bs ts, n => decide (tagOf d n = some tag ∧ pairs d n = ps ∧ bools d n = bs) &&
      (decide (ts.length = (kids d n).length) && (ts.zip (kids d n)).all (fun x => repB d f x.1 x.2))

theorem repL_zip {d : Dom} : ∀ {ts : List Tree} {ns : List Nat}, ts.length = ns.length →
    (∀ x ∈ ts.zip ns, Rep d x.1 x.2) → RepL d ts ns := by
  intro ts
  induction ts with
  | nil => intro ns h _; cases ns with
    | nil => trivial
    | cons => simp at h
  | cons t ts ih =>
    intro ns h hx
    cases ns with
    | nil => simp at h
    | cons n ns =>
      simp only [RepL]
      exact ⟨hx (t, n) (by simp), ih (by simpa using h) (fun x hm => hx x (by simp [hm]))⟩

theorem repB_rep {d : Dom} : ∀ {f : Nat} {t : Tree} {n : Nat}, repB d f t n = true → Rep d t n := by
  intro f
  induction f with
  | zero => intro t n h; cases h
  | succ f ih =>
    intro t n h
    cases t with
    | text raw => simp only [repB, decide_eq_true_eq] at h; simp only [Rep]; exact h
    | elem tag ps bs ts =>
      simp only [repB, Bool.and_eq_true, decide_eq_true_eq, List.all_eq_true] at h
      obtain ⟨⟨h1, h2, h3⟩, h4, h5⟩ := h
      simp only [Rep]
      exact ⟨h1, h2, h3, repL_zip h4 (fun x hx => ih (h5 x hx))⟩

def repLB (d : Dom) (f : Nat) (ts : List Tree) (ns : List Nat) : Bool :=
  decide (ts.length = ns.length) && (ts.zip ns).all (fun x => repB d f x.1 x.2)

theorem repLB_rep {d : Dom} {f : Nat} {ts : List Tree} {ns : List Nat} (h : repLB d f ts ns = true) :
    RepL d ts ns := by
  simp only [repLB, Bool.and_eq_true, decide_eq_true_eq, List.all_eq_true] at h
  exact repL_zip h.1 (fun x hx => repB_rep (h.2 x hx))

/-- non-vacuity: a reachable document and a fragment with a leading and a trailing text; appending below node 2
adds three nodes, prepending merges the trailing text. -/
example : ∃ d, Reachable d ∧ IsNode d 2 ∧ Fragment b!"one<i q k=\"v\">two</i>three" d exampleFrag ∧
    okAnd (appendHTML (fun _ => .ok false) 2 b!"one<i q k=\"v\">two</i>three" d)
      (fun r => decide (r.1 = 7 ∧ kids r.2 2 = [6, 3, 7, 8, 10])) = true ∧
    okAnd (prependHTML (fun _ => .ok false) 2 b!"one<i q k=\"v\">two</i>three" d)
      (fun r => decide (r.1 = 7 ∧ kids r.2 2 = [7, 8, 6, 3] ∧ textOf r.2 6 = some b!"three hi")) = true := by
  obtain ⟨dh, hdh, hrep⟩ := someAnd_ex (x := createDom b!"one<i q k=\"v\">two</i>three")
    (p := fun d => repLB d 10 exampleFrag (kids d 1)) (by decide +kernel)
  obtain ⟨d, h, hd⟩ := okAnd_ex (x := exampleRun) (p := fun d =>
    decide (2 < d.nodes.length) &&
    (okAnd (appendHTML (fun _ => .ok false) 2 b!"one<i q k=\"v\">two</i>three" d)
      (fun r => decide (r.1 = 7 ∧ kids r.2 2 = [6, 3, 7, 8, 10])) &&
    (okAnd (prependHTML (fun _ => .ok false) 2 b!"one<i q k=\"v\">two</i>three" d)
      (fun r => decide (r.1 = 7 ∧ kids r.2 2 = [7, 8, 6, 3] ∧ textOf r.2 6 = some b!"three hi")) &&
    okAnd (parseExtra (fun _ => .ub .oobIndex) b!"one<i q k=\"v\">two</i>three" d) (fun r => r.ok)))) (by decide +kernel)
  rw [Bool.and_eq_true, Bool.and_eq_true, Bool.and_eq_true] at hd
  obtain ⟨⟨ok, d1⟩, h1, h2⟩ := okAnd_ex hd.2.2.2
  dsimp only at h2
  subst h2
  exact ⟨d, exampleRun_reachable h, ⟨by omega, of_decide_eq_true hd.1⟩,
    ⟨⟨dh, hdh, repLB_rep hrep⟩, ⟨d1, h1⟩, by simp [exampleFrag]⟩, hd.2.1, hd.2.2.1⟩

/-! ## C27: replacement -/

/-- C27 fails: replacing the first child by a text that is merged into the next sibling dereferences a null
pointer; merging into the previous sibling while there is no next one returns 0; and a fragment of two texts
between two texts links a removed node. -/
theorem C27_violated :
    (∃ d, createDom b!"<p><b></b>x</p>" = .ok (some d) ∧
      decide (replaceWithHTML (fun _ => .ok false) 3 b!"y" d = .ub .nullDeref) = true) ∧
    (∃ d, createDom b!"<p>x<b></b></p>" = .ok (some d) ∧
      okAnd (replaceWithHTML (fun _ => .ok false) 4 b!"y" d) (fun r => decide (r.1 = 0 ∧ textOf r.2 3 = some b!"x y")) =
        true) ∧
    (∃ d, createDom b!"<p>x<b></b>z</p>" = .ok (some d) ∧
      okAnd (replaceWithHTML (fun _ => .ok false) 4 b!"a< b" d) (fun r => decide (r.1 ∈ kids r.2 2 ∧
        typeOf r.2 r.1 = some .removed)) = true) :=
  ⟨someAnd_ex (by decide +kernel), someAnd_ex (by decide +kernel), someAnd_ex (by decide +kernel)⟩

/-- What holds whenever something of the fragment is left after merging its first and last text into text
siblings: the call succeeds, the rest takes the place of the node, the first new child is returned, the replaced
node is removed and everything else is unchanged.  Missing: a single text next to a text sibling (next theorem),
two texts between two texts. -/
theorem C27_replaceHTML_partial (d : Dom) (h : Reachable d) (p n : Nat) (l₁ l₂ : List Nat)
    (he : kids d p = l₁ ++ n :: l₂) (html : Str) (F : List Tree) (hf : Fragment html d F)
    (hone : ∀ t, F = [.text t] → textOf d (l₁.getLastD 0) = none ∧ textOf d (l₂.headD 0) = none)
    (htwo : ∀ t u, F = [.text t, .text u] → textOf d (l₁.getLastD 0) = none ∨ textOf d (l₂.headD 0) = none)
    (junk : Nat → Out Bool) :
    ∃ id d' F1 F2 new, replaceWithHTML junk n html d = .ok (id, d') ∧
      MergeFirst d d' (l₁.getLastD 0) F F1 ∧ MergeLast d d' (l₂.headD 0) F1 F2 ∧
      kids d' p = l₁ ++ new ++ l₂ ∧ RepL d' F2 new ∧ new ≠ [] ∧ (∀ m ∈ new, d.nodes.length ≤ m) ∧
      id = new.headD 0 ∧ typeOf d' n = some .removed ∧
      (∀ q, q < d.nodes.length → q ≠ p → kids d' q = kids d q) ∧
      (∀ m, m < d.nodes.length → m ≠ n → m ≠ l₁.getLastD 0 → m ≠ l₂.headD 0 → SameNode d d' m) := by
  obtain ⟨hi, h0⟩ := reach_domI h
  have hp : p ≠ 0 := by
    rintro rfl; rw [h0] at he; simp at he
  exact replaceHTML_frag hi h0 (hf.parse hi h0 junk) hp he hone htwo

theorem replaceSingle_frag (d : Dom) (h : Reachable d) (p n a b : Nat) (l₁ l₂ : List Nat)
    (he : kids d p = l₁ ++ a :: n :: b :: l₂) (html : Str) (t : Str) {junk : Nat → Out Bool} (hf : FParse junk html d (kids d) [.text t])
    (hm : textOf d a ≠ none ∨ textOf d b ≠ none) :
    ∃ d' k tx, replaceWithHTML junk n html d = .ok (a, d') ∧
      ((∃ tk, textOf d a = some tk ∧ k = a ∧ tx = tk ++ [32] ++ t) ∨
       (textOf d a = none ∧ ∃ tk, textOf d b = some tk ∧ k = b ∧ tx = t ++ [32] ++ tk)) ∧
      textOf d' k = some tx ∧ pairs d' k = pairs d k ∧ bools d' k = bools d k ∧
      kids d' p = l₁ ++ a :: b :: l₂ ∧
      (∀ q, q ≠ p → q ∉ preorder d n → kids d' q = kids d q) ∧
      (∀ m ∈ preorder d n, typeOf d' m = some .removed) ∧
      (∀ m, m < d.nodes.length → m ≠ k → m ∉ preorder d n → SameNode d d' m) := by
  obtain ⟨hi, h0⟩ := reach_domI h
  have hp : p ≠ 0 := by
    rintro rfl; rw [h0] at he; simp at he
  have hr := hi.linked.range p n (by rw [he]; simp)
  have hpre := preorder_kids hi (p := n) ⟨by omega, hr.2.2⟩
  obtain ⟨d', k, tx, e, hc, inv, ht, h1, h2, h3, h4⟩ := replaceHTML_swallow hi h0 hf hp (n := n) (l₁ := l₁ ++ [a])
    (l₂ := b :: l₂) (by rw [he]; simp) (by simpa using hm)
  rw [if_neg (by simp), if_neg (by simp)] at e
  have hl1 : (l₁ ++ [a]).getLastD 0 = a := by simp
  have hl2 : (b :: l₂).headD 0 = b := rfl
  rw [hl1, hl2] at hc
  rw [hl1] at e
  have hk := inv.kidsFun (dropTree_nil h0)
  have hnd := hi.linked.nodup p
  rw [he] at hnd
  refine ⟨d', k, tx, e, hc, ht, h1, h2, ?_, ?_, by rw [hpre]; exact h3, by rw [hpre]; exact h4⟩
  · rw [hk]
    unfold dropTree
    rw [if_neg (fun hx => by have := pre_ge hi.linked.up n hr.2.2 p hx; omega), he]
    have hnot : n ∉ l₁ ++ [a] := by
      intro hx
      have : l₁ ++ a :: n :: b :: l₂ = (l₁ ++ [a]) ++ n :: b :: l₂ := by simp
      rw [this, List.nodup_append] at hnd
      exact hnd.2.2 n hx n (by simp) rfl
    have : l₁ ++ a :: n :: b :: l₂ = (l₁ ++ [a]) ++ n :: b :: l₂ := by simp
    rw [this, List.erase_append_right _ hnot]
    simp
  · intro q hq hqp
    rw [hpre] at hqp
    rw [hk]
    unfold dropTree
    rw [if_neg hqp, List.erase_of_not_mem]
    intro hx
    exact hq (hi.linked.uniq q p n hx (by rw [he]; simp))

theorem replaceSingleEnds_frag (d : Dom) (h : Reachable d) (p n : Nat) (l₁ l₂ : List Nat)
    (he : kids d p = l₁ ++ n :: l₂) (html : Str) (t : Str) {junk : Nat → Out Bool} (hf : FParse junk html d (kids d) [.text t]) :
    (∀ b l tb, l₁ = [] → l₂ = b :: l → textOf d b = some tb → replaceWithHTML junk n html d = .ub .nullDeref) ∧
    (∀ a l ta, l₁ = l ++ [a] → l₂ = [] → textOf d a = some ta →
      ∃ d', replaceWithHTML junk n html d = .ok (0, d') ∧ textOf d' a = some (ta ++ [32] ++ t) ∧
        pairs d' a = pairs d a ∧ bools d' a = bools d a ∧ kids d' p = l ++ [a] ∧
        (∀ q, q ≠ p → q ∉ preorder d n → kids d' q = kids d q) ∧
        (∀ m ∈ preorder d n, typeOf d' m = some .removed) ∧
        (∀ m, m < d.nodes.length → m ≠ a → m ∉ preorder d n → SameNode d d' m)) := by
  obtain ⟨hi, h0⟩ := reach_domI h
  have hp : p ≠ 0 := by
    rintro rfl; rw [h0] at he; simp at he
  have hr := hi.linked.range p n (by rw [he]; simp)
  have hpre := preorder_kids hi (p := n) ⟨by omega, hr.2.2⟩
  refine ⟨?_, ?_⟩
  · rintro b l tb rfl rfl htb
    obtain ⟨d', k, tx, e, _⟩ := replaceHTML_swallow hi h0 hf hp he (by simp [htb])
    rwa [if_pos rfl] at e
  · rintro a l ta rfl rfl hta
    have hnd := hi.linked.nodup p
    rw [he] at hnd
    obtain ⟨d', k, tx, e, hc, inv, ht, h1, h2, h3, h4⟩ := replaceHTML_swallow hi h0 hf hp he (by simp [hta])
    rw [if_neg (by simp), if_pos rfl] at e
    have hlast : (l ++ [a]).getLastD 0 = a := by simp
    rw [hlast] at hc
    rcases hc with ⟨tk, g1, rfl, rfl⟩ | ⟨g1, _⟩
    swap
    · rw [hta] at g1; cases g1
    rw [hta] at g1; cases g1
    have hk := inv.kidsFun (dropTree_nil h0)
    refine ⟨d', e, ht, h1, h2, ?_, ?_, by rw [hpre]; exact h3, by rw [hpre]; exact h4⟩
    · rw [hk]
      unfold dropTree
      rw [if_neg (fun hx => by have := pre_ge hi.linked.up n hr.2.2 p hx; omega), he]
      have hnot : n ∉ l ++ [k] := by
        intro hx
        rw [List.nodup_append] at hnd
        exact hnd.2.2 n hx n (by simp) rfl
      rw [List.erase_append_right _ hnot]
      simp
    · intro q hq hqp
      rw [hpre] at hqp
      rw [hk]
      unfold dropTree
      rw [if_neg hqp, List.erase_of_not_mem]
      intro hx
      exact hq (hi.linked.uniq q p n hx (by rw [he]; simp))

/-- A single text with siblings on both sides, at least one of the two a text: it is merged into the previous
sibling if that is a text and into the next one otherwise, the node is removed with its subtree, and the previous
sibling is returned.  Missing: the node is a first or last child. -/
theorem C27_replaceHTML_single_text_partial (d : Dom) (h : Reachable d) (p n a b : Nat) (l₁ l₂ : List Nat)
    (he : kids d p = l₁ ++ a :: n :: b :: l₂) (html : Str) (t : Str) (hf : Fragment html d [.text t])
    (hm : textOf d a ≠ none ∨ textOf d b ≠ none) (junk : Nat → Out Bool) :
    ∃ d' k tx, replaceWithHTML junk n html d = .ok (a, d') ∧
      ((∃ tk, textOf d a = some tk ∧ k = a ∧ tx = tk ++ [32] ++ t) ∨
       (textOf d a = none ∧ ∃ tk, textOf d b = some tk ∧ k = b ∧ tx = t ++ [32] ++ tk)) ∧
      textOf d' k = some tx ∧ pairs d' k = pairs d k ∧ bools d' k = bools d k ∧
      kids d' p = l₁ ++ a :: b :: l₂ ∧
      (∀ q, q ≠ p → q ∉ preorder d n → kids d' q = kids d q) ∧
      (∀ m ∈ preorder d n, typeOf d' m = some .removed) ∧
      (∀ m, m < d.nodes.length → m ≠ k → m ∉ preorder d n → SameNode d d' m) := by
  obtain ⟨hi, h0⟩ := reach_domI h
  exact replaceSingle_frag d h p n a b l₁ l₂ he html t (hf.parse hi h0 junk) hm

/-- The remaining positions of a single text, exactly: replacing a first child by a text that is merged into the next
sibling always dereferences a null pointer; replacing a last child by a text that is merged into the previous sibling
does everything right but returns 0. -/
theorem C27_single_text_exact_partial (d : Dom) (h : Reachable d) (p n : Nat) (l₁ l₂ : List Nat)
    (he : kids d p = l₁ ++ n :: l₂) (html : Str) (t : Str) (hf : Fragment html d [.text t]) (junk : Nat → Out Bool) :
    (∀ b l tb, l₁ = [] → l₂ = b :: l → textOf d b = some tb → replaceWithHTML junk n html d = .ub .nullDeref) ∧
    (∀ a l ta, l₁ = l ++ [a] → l₂ = [] → textOf d a = some ta →
      ∃ d', replaceWithHTML junk n html d = .ok (0, d') ∧ textOf d' a = some (ta ++ [32] ++ t) ∧
        pairs d' a = pairs d a ∧ bools d' a = bools d a ∧ kids d' p = l ++ [a] ∧
        (∀ q, q ≠ p → q ∉ preorder d n → kids d' q = kids d q) ∧
        (∀ m ∈ preorder d n, typeOf d' m = some .removed) ∧
        (∀ m, m < d.nodes.length → m ≠ a → m ∉ preorder d n → SameNode d d' m)) := by
  obtain ⟨hi, h0⟩ := reach_domI h
  exact replaceSingleEnds_frag d h p n l₁ l₂ he html t (hf.parse hi h0 junk)

/-- Two texts between two texts, exactly: both are merged into the neighbours, and then the second new node, already
removed, is linked in the place of the replaced node and returned. -/
theorem C27_two_texts_exact_partial (d : Dom) (h : Reachable d) (p n a b : Nat) (l₁ l₂ : List Nat)
    (he : kids d p = l₁ ++ a :: n :: b :: l₂) (html : Str) (t u : Str) (hf : Fragment html d [.text t, .text u])
    (ta tb : Str) (ha : textOf d a = some ta) (hb : textOf d b = some tb) (junk : Nat → Out Bool) :
    ∃ d', replaceWithHTML junk n html d = .ok (d.nodes.length + 1, d') ∧
      kids d' p = l₁ ++ a :: (d.nodes.length + 1) :: b :: l₂ ∧
      typeOf d' (d.nodes.length + 1) = some .removed ∧ typeOf d' d.nodes.length = some .removed ∧
      textOf d' a = some (ta ++ [32] ++ t) ∧ textOf d' b = some (u ++ [32] ++ tb) ∧
      typeOf d' n = some .removed ∧
      (∀ q, q ≠ p → kids d' q = kids d q) ∧
      (∀ m, m < d.nodes.length → m ≠ n → m ≠ a → m ≠ b → SameNode d d' m) := by
  obtain ⟨hi, h0⟩ := reach_domI h
  have hp : p ≠ 0 := by
    rintro rfl; rw [h0] at he; simp at he
  exact replaceHTML_two hi h0 (hf.parse hi h0 junk) hp he ha hb

/-- non-vacuity: a first child before a text, a last child behind a text, a node between two texts. -/
example : ∃ d, Reachable d ∧ kids d 2 = [] ++ 3 :: [4] ∧ Fragment b!"y" d [.text b!"y"] ∧ textOf d 4 = some b!"x" := by
  obtain ⟨dh, hdh, hrep⟩ := someAnd_ex (x := createDom b!"y")
    (p := fun d => repLB d 10 [.text b!"y"] (kids d 1)) (by decide +kernel)
  obtain ⟨d, h, hd⟩ := someAnd_ex (x := createDom b!"<p><b></b>x</p>") (p := fun d =>
    decide (kids d 2 = [] ++ 3 :: [4] ∧ textOf d 4 = some b!"x") &&
    okAnd (parseExtra (fun _ => .ub .oobIndex) b!"y" d) (fun r => r.ok)) (by decide +kernel)
  rw [Bool.and_eq_true] at hd
  obtain ⟨⟨ok, d1⟩, h1, h2⟩ := okAnd_ex hd.2
  dsimp only at h2
  subst h2
  have hd1 := of_decide_eq_true hd.1
  exact ⟨d, .parsed h, hd1.1, ⟨⟨dh, hdh, repLB_rep hrep⟩, ⟨d1, h1⟩, by simp⟩, hd1.2⟩

example : ∃ d, Reachable d ∧ kids d 2 = [] ++ 3 :: 4 :: 5 :: [] ∧
    Fragment b!"a< b" d [.text b!"a", .text b!" b"] ∧ textOf d 3 = some b!"x" ∧ textOf d 5 = some b!"z" := by
  obtain ⟨dh, hdh, hrep⟩ := someAnd_ex (x := createDom b!"a< b")
    (p := fun d => repLB d 10 [.text b!"a", .text b!" b"] (kids d 1)) (by decide +kernel)
  obtain ⟨d, h, hd⟩ := someAnd_ex (x := createDom b!"<p>x<b></b>z</p>") (p := fun d =>
    decide (kids d 2 = [] ++ 3 :: 4 :: 5 :: [] ∧ textOf d 3 = some b!"x" ∧ textOf d 5 = some b!"z") &&
    okAnd (parseExtra (fun _ => .ub .oobIndex) b!"a< b" d) (fun r => r.ok)) (by decide +kernel)
  rw [Bool.and_eq_true] at hd
  obtain ⟨⟨ok, d1⟩, h1, h2⟩ := okAnd_ex hd.2
  dsimp only at h2
  subst h2
  have hd1 := of_decide_eq_true hd.1
  exact ⟨d, .parsed h, hd1.1, ⟨⟨dh, hdh, repLB_rep hrep⟩, ⟨d1, h1⟩, by simp⟩, hd1.2.1, hd1.2.2⟩

/-- non-vacuity: node 3 (between the text 6 and nothing) and, in another document, an element between two texts. -/
example : ∃ d, Reachable d ∧ kids d 2 = [6] ++ 3 :: [] ∧ Fragment b!"one<i q k=\"v\">two</i>three" d exampleFrag ∧
    okAnd (replaceWithHTML (fun _ => .ok false) 3 b!"one<i q k=\"v\">two</i>three" d)
      (fun r => decide (r.1 = 8 ∧ kids r.2 2 = [6, 8, 10] ∧ textOf r.2 6 = some b!"hi one")) = true := by
  obtain ⟨dh, hdh, hrep⟩ := someAnd_ex (x := createDom b!"one<i q k=\"v\">two</i>three")
    (p := fun d => repLB d 10 exampleFrag (kids d 1)) (by decide +kernel)
  obtain ⟨d, h, hd⟩ := okAnd_ex (x := exampleRun) (p := fun d =>
    decide (kids d 2 = [6] ++ 3 :: []) &&
    (okAnd (replaceWithHTML (fun _ => .ok false) 3 b!"one<i q k=\"v\">two</i>three" d)
      (fun r => decide (r.1 = 8 ∧ kids r.2 2 = [6, 8, 10] ∧ textOf r.2 6 = some b!"hi one")) &&
    okAnd (parseExtra (fun _ => .ub .oobIndex) b!"one<i q k=\"v\">two</i>three" d) (fun r => r.ok))) (by decide +kernel)
  rw [Bool.and_eq_true, Bool.and_eq_true] at hd
  obtain ⟨⟨ok, d1⟩, h1, h2⟩ := okAnd_ex hd.2.2
  dsimp only at h2
  subst h2
  exact ⟨d, exampleRun_reachable h, of_decide_eq_true hd.1,
    ⟨⟨dh, hdh, repLB_rep hrep⟩, ⟨d1, h1⟩, by simp [exampleFrag]⟩, hd.2.1⟩

example : ∃ d, Reachable d ∧ kids d 2 = [] ++ 3 :: 4 :: 5 :: [] ∧ Fragment b!"y" d [.text b!"y"] ∧ textOf d 3 ≠ none ∧
    okAnd (replaceWithHTML (fun _ => .ok false) 4 b!"y" d)
      (fun r => decide (r.1 = 3 ∧ kids r.2 2 = [3, 5] ∧ textOf r.2 3 = some b!"x y")) = true := by
  obtain ⟨dh, hdh, hrep⟩ := someAnd_ex (x := createDom b!"y")
    (p := fun d => repLB d 10 [.text b!"y"] (kids d 1)) (by decide +kernel)
  obtain ⟨d, h, hd⟩ := someAnd_ex (x := createDom b!"<p>x<b></b>z</p>") (p := fun d =>
    decide (kids d 2 = [] ++ 3 :: 4 :: 5 :: [] ∧ textOf d 3 ≠ none) &&
    (okAnd (replaceWithHTML (fun _ => .ok false) 4 b!"y" d)
      (fun r => decide (r.1 = 3 ∧ kids r.2 2 = [3, 5] ∧ textOf r.2 3 = some b!"x y")) &&
    okAnd (parseExtra (fun _ => .ub .oobIndex) b!"y" d) (fun r => r.ok))) (by decide +kernel)
  rw [Bool.and_eq_true, Bool.and_eq_true] at hd
  obtain ⟨⟨ok, d1⟩, h1, h2⟩ := okAnd_ex hd.2.2
  dsimp only at h2
  subst h2
  have hd1 := of_decide_eq_true hd.1
  exact ⟨d, .parsed h, hd1.1, ⟨⟨dh, hdh, repLB_rep hrep⟩, ⟨d1, h1⟩, by simp⟩, hd1.2, hd.2.1⟩

end Flo
