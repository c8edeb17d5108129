import Verif.Proofs.Forms
import Verif.Props.Print
import Verif.Spec.Compare
/-!
# The form kept for a tag name (C74)

`formOf d tag`: what the DOM has on record for the name (`none`: the name was never used), `firstForm us tag`: the first
form in a list of uses.  Printing an element consults the record (`C74_written`).
-/
namespace Flo
open Spec

/-- After parsing, the form on record for a name is the one of its first use in the source. -/
theorem C74_parsed (lead : Str) (ks : Srcs) (hl : Blank lead) (hk : ks.Clean) (d : Dom)
    (h : createDom (lead ++ ks.render) = .ok (some d)) (tag : Str) : formOf d tag = firstForm ks.forms tag := by
  rw [(createDom_used hl hk h).2]
  rfl

/-- Edits never change the form on record for a name, whatever they are and whatever HTML they are given. -/
theorem C74_kept (d d' : Dom) (h : Reachable d) (junk : Nat → Out Bool) (hj : Reads junk) (op : Op)
    (hr : runOp junk op d = .ok d') (tag : Str) (b : Bool) (hb : formOf d tag = some b) : formOf d' tag = some b := by
  obtain ⟨us, hu⟩ := runOp_used_any hj op (reach_domI h).1.names.tag d' hr
  rw [hu.2, hb]; rfl

/-- Exactly which names get a form: those used by the operation that had none, each the form of its first use. -/
theorem C74_edit (d d' : Dom) (h : Reachable d) (junk : Nat → Out Bool) (op : Op) (us : List (Str × Bool)) (hu : OpUses op us)
    (hr : runOp junk op d = .ok d') (tag : Str) : formOf d' tag = (formOf d tag).or (firstForm us tag) :=
  (runOp_used hu (reach_domI h).1.names.tag d' hr).2 tag

/-- A copy has the same forms on record. -/
theorem C74_duplicate (d d' : Dom) (hr : duplicateDom d = .ok d') (tag : Str) : formOf d' tag = formOf d tag := by
  have : Ok (fun d' => d'.tagReg = d.tagReg) (duplicateDom d) := by
    unfold duplicateDom
    refine Ok.triv.bind fun _ _ => ?_
    refine Ok.triv.bind fun _ _ => ?_
    refine Ok.triv.bind fun _ _ => ?_
    exact Ok.triv.bind fun _ _ => Ok.ok rfl
  unfold formOf
  rw [this d' hr]

/-- Every element of a reachable document has a form on record, which is the one it is compared by (`pairedOf`) and
printed by (`pairedTag`). -/
theorem C74_written (d : Dom) (h : Reachable d) (n : Nat) (tag : Str) (ht : tagOf d n = some tag) :
    ∃ b, formOf d tag = some b ∧ pairedOf d n = some b ∧ pairedTag d tag = b := by
  have hi := (reach_domI h).1
  unfold tagOf at ht
  split at ht
  · rename_i t hget
    rw [Option.map_eq_some_iff] at ht
    obtain ⟨r, hr, rfl⟩ := ht
    obtain ⟨t', e1, e2, e3⟩ := (hi.good n _ hget).doc rfl
    cases e1
    have hp := tagReg_find hi.names e2 hr
    have hf : formOf d r.1 = some r.2 := by
      cases hc : formOf d r.1 with
      | none =>
        unfold formOf at hc
        rw [firstForm_none] at hc
        exfalso
        apply hc
        refine List.mem_map.mpr ⟨r, List.mem_of_getElem? (i := t - 1) ?_, rfl⟩
        rw [List.getElem?_drop, show 1 + (t - 1) = t by omega]; exact hr
      | some b =>
        have : pairedTag d r.1 = b := by
          unfold formOf firstForm at hc
          rw [Option.map_eq_some_iff] at hc
          obtain ⟨x, hx, rfl⟩ := hc
          unfold pairedTag
          rw [hx]
        rw [← this, hp]
    exact ⟨r.2, hf, by unfold pairedOf; rw [hget]; simp [hr], hp⟩
  · cases ht

/-- Hence what is printed for any clean source, consistent or not: every element in the form in which its name was
first written. -/
theorem C74_print (lead : Str) (ks : Srcs) (hl : Blank lead) (hk : ks.Clean) (hd : ks.depth ≤ 255) (d : Dom)
    (h : createDom (lead ++ ks.render) = .ok (some d)) :
    printHTML d = .ok (printAll (fun tag => (firstForm ks.forms tag).getD false) ks.trees) := by
  have hi := (reach_domI (.parsed h)).1
  have hF : RepL d ks.trees (kids d 1) := by
    rcases createDom_src hl hk hd with h1 | ⟨d', h1, h2⟩
    · rw [h] at h1; cases h1
    · rw [h] at h1; cases h1; exact h2
  have e : pairedTag d = fun tag => (firstForm ks.forms tag).getD false := by
    funext tag
    rw [← C74_parsed lead ks hl hk d h tag]
    unfold pairedTag formOf firstForm
    cases (d.tagReg.drop 1).find? (fun r => r.1 == tag) <;> rfl
  rw [printHTML_forest hi hF, e]

/-- non-vacuity: a source that uses a name in both forms, and edits that use a known and a new name. -/
def mixedSrc : Srcs :=
  .cons (.single b!"a" [] [] true) [] (.cons (.paired b!"a" [] [] [] (.cons (.text b!"x" []) [] .nil) []) [] .nil)
example : mixedSrc.Clean ∧ mixedSrc.render = b!"<a/><a>x</a>" ∧ mixedSrc.forms = [(b!"a", false), (b!"a", true)] := by
  have ha : TagName b!"a" := ⟨⟨_, _, rfl, by decide⟩, by decide, by decide, by decide⟩
  refine ⟨⟨⟨ha, by simp, by decide, by simp [SlashOK], by decide⟩, .nil, ⟨⟨ha, by simp, by decide, by decide, .nil,
    ⟨⟨stretch_word _ _ rfl (by decide), by simp⟩, .nil, trivial, by simp [Srcs.StartsText]⟩, by decide⟩, .nil, trivial, trivial⟩,
    trivial⟩, rfl, rfl⟩
example : ∃ d, Reachable d ∧ formOf d b!"b" = some true ∧ formOf d b!"i" = none ∧
    okAnd (appendDocumentNode 2 ⟨b!"i", false, [], []⟩ d) (fun r => decide (formOf r.2 b!"i" = some false)) = true ∧
    okAnd (appendDocumentNode 2 ⟨b!"b", false, [], []⟩ d) (fun r => decide (formOf r.2 b!"b" = some true)) = true := by
  obtain ⟨d, h, hd⟩ := okAnd_ex (x := exampleRun) (p := fun d =>
    decide (formOf d b!"b" = some true) && (decide (formOf d b!"i" = none) &&
    (okAnd (appendDocumentNode 2 ⟨b!"i", false, [], []⟩ d) (fun r => decide (formOf r.2 b!"i" = some false)) &&
    okAnd (appendDocumentNode 2 ⟨b!"b", false, [], []⟩ d) (fun r => decide (formOf r.2 b!"b" = some true)))))
    (by decide +kernel)
  rw [Bool.and_eq_true, Bool.and_eq_true, Bool.and_eq_true] at hd
  exact ⟨d, exampleRun_reachable h, of_decide_eq_true hd.1, of_decide_eq_true hd.2.1, hd.2.2⟩

end Flo
