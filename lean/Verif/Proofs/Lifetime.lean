import Verif.Proofs.Count
import Verif.Spec.Lifetime
/-!
# Counting the identifiers a call spends
-/
namespace Flo
open Spec

theorem makesNode_count {junk : Nat → Out Bool} {op : Op} {d : Dom} (hm : op.makesNode = true) :
    Ok (fun d' => d'.nodes.length = d.nodes.length + 1) (runOp junk op d) := by
  have key : ∀ {d1 d2 d3 : Dom} {m m' : Nat}, Delta d1 d2 1 m → Delta d2 d3 0 m' → d3.nodes.length = d1.nodes.length + 1 :=
    fun a b => by have := a.nodes; have := b.nodes; omega
  cases op with
  | attr op => cases hm
  | addText n t a => cases hm
  | setTag t n p => cases hm
  | setText n t => exact (setText_count n t d).mono fun d' h => h.nodes
  | removeNode n => cases hm
  | removeChildren n => cases hm
  | appendDoc p doc =>
    refine Ok.drop (P := fun r => r.2.nodes.length = d.nodes.length + 1) ?_ fun _ h => h
    unfold appendDocumentNode
    refine (parseDoc_count doc d).bind fun ⟨rid, rd⟩ h => ?_
    dsimp only at h ⊢
    split
    · exact Ok.ok h.2.nodes
    · exact (appendUpdate_count _ _ _).bind fun d' h' => Ok.ok (key h.2 h')
  | appendText p t =>
    refine Ok.drop (P := fun r => r.2.nodes.length = d.nodes.length + 1) ?_ fun _ h => h
    unfold appendTextNode
    refine (parseText_count t d).bind fun ⟨rid, rd⟩ h => ?_
    dsimp only at h ⊢
    split
    · exact Ok.ok h.2.nodes
    · split
      · refine Ok.triv.bind fun c _ => ?_
        refine (tryMerge_count _ _ _ _).bind fun ⟨mb, md⟩ hm => ?_
        dsimp only at hm ⊢
        split
        · exact (removeNode_count _ _).bind fun d' h' => Ok.ok (key (h.2.trans hm) h')
        · exact (appendUpdate_count _ _ _).bind fun d' h' => Ok.ok (key (h.2.trans hm) h')
      · exact (appendUpdate_count _ _ _).bind fun d' h' => Ok.ok (key h.2 h')
  | appendHTML p h => cases hm
  | prependDoc p doc =>
    refine Ok.drop (P := fun r => r.2.nodes.length = d.nodes.length + 1) ?_ fun _ h => h
    unfold prependDocumentNode
    refine (parseDoc_count doc d).bind fun ⟨rid, rd⟩ h => ?_
    dsimp only at h ⊢
    split
    · exact Ok.ok h.2.nodes
    · exact (prependUpdate_count _ _ _).bind fun d' h' => Ok.ok (key h.2 h')
  | prependText p t =>
    refine Ok.drop (P := fun r => r.2.nodes.length = d.nodes.length + 1) ?_ fun _ h => h
    unfold prependTextNode
    refine (parseText_count t d).bind fun ⟨rid, rd⟩ h => ?_
    dsimp only at h ⊢
    split
    · exact Ok.ok h.2.nodes
    · split
      · refine (tryMerge_count _ _ _ _).bind fun ⟨mb, md⟩ hm => ?_
        dsimp only at hm ⊢
        split
        · exact (removeNode_count _ _).bind fun d' h' => Ok.ok (key (h.2.trans hm) h')
        · exact (prependUpdate_count _ _ _).bind fun d' h' => Ok.ok (key (h.2.trans hm) h')
      · exact (prependUpdate_count _ _ _).bind fun d' h' => Ok.ok (key h.2 h')
  | prependHTML p h => cases hm
  | replaceDoc n doc =>
    refine Ok.drop (P := fun r => r.2.nodes.length = d.nodes.length + 1) ?_ fun _ h => h
    unfold replaceWithDocumentNode
    refine (parseDoc_count doc d).bind fun ⟨rid, rd⟩ h => ?_
    dsimp only at h ⊢
    split
    · exact Ok.ok h.2.nodes
    · exact (replaceUpdate_count _ _ _).bind fun d' h' => Ok.ok (key h.2 h')
  | replaceText n t =>
    refine Ok.drop (P := fun r => r.2.nodes.length = d.nodes.length + 1) ?_ fun _ h => h
    unfold replaceWithTextNode
    refine (parseText_count t d).bind fun ⟨rid, rd⟩ h => ?_
    dsimp only at h ⊢
    split
    · exact Ok.ok h.2.nodes
    · refine (tryMergeBoth_count _ _ _).bind fun ⟨mb, md⟩ hm => ?_
      dsimp only at hm ⊢
      split
      · refine (removeNode_count _ _).bind fun d1 h1 => ?_
        exact (removeNode_count _ _).bind fun d2 h2 => Ok.ok (key ((h.2.trans hm).trans h1) h2)
      · exact (replaceUpdate_count _ _ _).bind fun d' h' => Ok.ok (key (h.2.trans hm) h')
  | replaceHTML n h => cases hm

end Flo
