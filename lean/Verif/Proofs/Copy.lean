import Verif.Spec.Copy
import Verif.Proofs.RefFrag
import Verif.Proofs.Reparse
import Verif.Proofs.Inject
/-!
# Printed trees as HTML strings (C116)
-/
namespace Flo.Copy
open Spec

mutual
theorem src_nests {limit : Nat} : ∀ (t : Src), t.Clean → ∀ (n : Nat) (E : List Ev), n + t.depth ≤ limit →
    nestsBeyond limit n ((t.evs ++ E).map tokOf) = nestsBeyond limit n (E.map tokOf)
  | .text first more, _, n, E, hd => by simp [Src.evs, tokOf, nestsBeyond]
  | .single tag as gap slash, hc, n, E, hd => by
    simp only [Src.evs, canS_false hc.2.2.2.2, List.cons_append, List.nil_append, List.map_cons, tokOf, nestsBeyond]
  | .paired tag as gap lead ks gap', hc, n, E, hd => by
    have hd : n + (ks.depth + 1) ≤ limit := hd
    simp only [Src.evs, List.cons_append, List.map_cons, tokOf, nestsBeyond, List.append_assoc]
    rw [srcs_nests ks hc.2.2.2.2.2.1 (n + 1) _ (by omega), decide_eq_false (by omega)]
    simp [tokOf, nestsBeyond]
theorem srcs_nests {limit : Nat} : ∀ (ks : Srcs), ks.Clean → ∀ (n : Nat) (E : List Ev), n + ks.depth ≤ limit →
    nestsBeyond limit n ((ks.evs ++ E).map tokOf) = nestsBeyond limit n (E.map tokOf)
  | .nil, _, n, E, hd => rfl
  | .cons t b rest, hc, n, E, hd => by
    have hd : n + max t.depth rest.depth ≤ limit := hd
    simp only [Srcs.evs, List.append_assoc]
    simp only [Srcs.Clean] at hc
    rw [src_nests t hc.1 n _ (by omega), srcs_nests rest hc.2.2.1 n E (by omega)]
end

theorem stuck_ub {base : Nat → Out Bool} {s : Str} {f k : Nat} {tags : List Str} {evs : List Ev} (h : Stuck base s f k tags evs) :
    lexAll base s f k tags = .ub .negLen := by
  induction h with
  | here h e => unfold lexAll; rw [if_pos h, e]; rfl
  | step h e _ ih => unfold lexAll; rw [if_pos h, e]; show (lexAll _ _ _ _ _ >>= _) = _; rw [ih]; rfl

theorem frag_src (answer : Nat → Bool) {lead : Str} {ks : Srcs} (hl : Blank lead) (hk : ks.Clean) (hd : ks.depth ≤ 256) :
    fragOutcome answer (lead ++ ks.render) = .document ks.trees ∧
    tokenForms (fragTokens answer (lead ++ ks.render)).1 = evForms ks.evs := by
  have hj : ∀ i, (fun i => Out.ok (answer i)) i = .ok (answer i) := fun _ => rfl
  have hlex := lex_doc (s := lead ++ ks.render) hl hk rfl (fragBase_ok (fun i => .ok (answer i)) _)
  rcases fragTokens_lex hj (lead ++ ks.render) with ⟨h1, evs, h2, h3⟩ | ⟨h1, evs, h2, h3⟩
  · rw [hlex] at h2
    cases h2
    have hn := srcs_nests (limit := 256) ks hk 0 [] (by omega)
    rw [List.append_nil] at hn
    refine ⟨?_, by rw [h3, tokenForms_evs]⟩
    unfold fragOutcome
    rw [h1, h3, hn, treesOf_forest (lexAll_closes (tags := []) hlex), forest_evs hk, List.map_nil, nestsBeyond]
    rfl
  · unfold lex at hlex; rw [stuck_ub h2] at hlex; cases hlex

mutual
theorem toSrc_forms {P : Str → Bool} : ∀ (t : Tree), t.Printable P → evForms (toSrc P t).evs = namesOf P [t]
  | .text raw, _ => rfl
  | .elem tag ps bs ts, h => by
    have hc := toSrc_clean (.elem tag ps bs ts) h
    unfold toSrc at hc ⊢
    split at hc
    · rename_i hp
      rw [if_pos hp]
      simp only [Src.evs, evForms, evForms_append]
      rw [toSrcs_forms ts h.2.2.2.2.2]
      simp [namesOf, labelsAll, Tree.labels, elementsOf, hp]
    · rename_i hp
      rw [if_neg hp]
      have hp : P tag = false := by simpa using hp
      simp only [Src.evs, evForms, canS_false hc.2.2.2.2]
      have := (h.2.2.2.2.1 hp).1
      subst this
      simp [namesOf, labelsAll, Tree.labels, elementsOf, hp]
theorem toSrcs_forms {P : Str → Bool} : ∀ (ts : List Tree), PrintableAll P ts → evForms (toSrcs P ts).evs = namesOf P ts
  | [], _ => rfl
  | t :: ts, h => by
    simp only [toSrcs, Srcs.evs, evForms_append, toSrc_forms t h.1, toSrcs_forms ts h.2.1]
    simp [namesOf, labelsAll, elementsOf]
end

/-- Printed trees, read as an HTML string, are the trees again. -/
theorem frag_printed (answer : Nat → Bool) {P : Str → Bool} {F : List Tree} (hp : PrintableAll P F) (hn : nestingAll P F ≤ 256) :
    fragOutcome answer (printAll P F) = .document F ∧ tokenForms (fragTokens answer (printAll P F)).1 = namesOf P F := by
  have := frag_src answer (lead := []) (ks := toSrcs P F) Blank.nil (toSrcs_clean F hp) (by rw [toSrcs_depth]; exact hn)
  rw [List.nil_append, toSrcs_render, toSrcs_trees F hp, toSrcs_forms F hp] at this
  exact this

end Flo.Copy
