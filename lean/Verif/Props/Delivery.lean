import Verif.Proofs.Delivery
import Verif.Props.Files
/-!
# C60, C71: exactly what is written when writes fail
-/
namespace Flo
open Spec

/-- Of a text that fits the buffer a file can get exactly the beginnings. -/
theorem delivered_small {cap : Nat} {P c : Str} (h : P.length ≤ cap) : Delivered cap P c ↔ c <+: P := by
  constructor
  · rintro ⟨c1, R, c2, h1, h2, rfl⟩
    cases h1 with
    | fits _ => exact h2
    | failed h1 _ _ _ => omega
    | delivered h1 _ => omega
  · intro hc
    exact ⟨[], P, c, .fits h, hc, rfl⟩

theorem Spec.Pushed.sublist {cap : Nat} {P c R : Str} (h : Pushed cap P c R) : P.Sublist (c ++ R) := by
  induction h with
  | fits _ => exact List.Sublist.refl _
  | failed _ _ _ _ ih => rw [List.append_assoc]; exact ih.trans (List.sublist_append_right _ _)
  | @delivered P c R _ _ ih =>
    rw [List.append_assoc]
    have := List.Sublist.append_left ih (P.take cap)
    rw [List.take_append_drop] at this
    exact this

/-- **C60** Exactly what appends can do on a file that may report errors at any time: appending `texts` can leave `R` in the buffer and
deliver `c` just if `Pushed` says so. -/
theorem C60_delivery_exact_partial (texts : List Str) (cap : Nat) (hcap : 0 < cap) (data sink : Str) (hl : data.length ≤ cap) (c R : Str) :
    (∃ sched b', runLogs (texts.map fun t => .append t ⟨false, false⟩) ⟨cap, data, sink, sched⟩ = .ok b' ∧ b'.sink = sink ++ c ∧ b'.data = R) ↔
    Pushed cap (data ++ texts.flatten) c R := by
  constructor
  · rintro ⟨sched, b', e, h1, h2⟩
    obtain ⟨_, c', h3, h4⟩ := runPieces_pushed texts _ _ hl e
    rw [h1] at h3
    rw [← h2, List.append_cancel_left h3]
    exact h4
  · intro h
    obtain ⟨q, hq⟩ := runPieces_possible hcap texts data c R hl h
    have := hq [] sink
    rw [List.append_nil] at this
    exact ⟨q, _, this, rfl, rfl⟩

/-- **C71** Exactly what writing a document to a file does, whatever the writes report: success is reported whenever the file could be
opened, and the file can have got just the texts that `Delivered` allows for the printed document and the buffer of 8192 bytes. -/
theorem C71_exact_partial (d : Dom) (h : Reachable d) (F : List Tree) (hF : RepL d F (kids d 1)) (path behind : Str)
    (ht : Terminated path behind) (canOpen : Str → Bool) (ho : canOpen path = true)
    (scratch : Arena) (hr1 : (path.length : Int) + 1 ≤ scratch.stop - scratch.beg) (hr2 : 8192 ≤ scratch.stop - scratch.beg) :
    ∃ ds, createPath path scratch = .ok ds ∧
      (∀ sched, ∃ c, writeHTMLToFile d path behind canOpen sched scratch = .ok ⟨.success, ds, path, c⟩) ∧
      ∀ c, (∃ sched, writeHTMLToFile d path behind canOpen sched scratch = .ok ⟨.success, ds, path, c⟩) ↔
        Delivered 8192 (printAll (pairedTag d) F) c := by
  obtain ⟨ds, hds⟩ := createPath_ok path scratch ht.1 hr1
  have hp := C54_print_partial d h F hF
  obtain ⟨ts, hts, hf⟩ := emitDom_spec hp
  have hpad : arenaPadding scratch.beg 1 = 0 := by rw [arenaPadding_eq _ _ isAlign_one]; exact Int.emod_one _
  have hrun : ∀ sched, writeHTMLToFile d path behind canOpen sched scratch = (do
      let b ← runLogs (pieceOps ts) ⟨8192, [], [], sched⟩
      let b ← flushIgnore b
      .ok ⟨.success, ds, path, b.sink⟩ : Out WriteResult) := by
    intro sched
    unfold writeHTMLToFile
    rw [hds, mkdirArg_terminated ht]
    simp only [Out.bind_ok]
    rw [if_pos ho]
    unfold arenaAlloc
    rw [hpad]
    dsimp only
    rw [if_neg (by rw [Int.tdiv_one]; omega), hf]
    rfl
  have hs : ∀ s k fl, LogOp.minSize s k fl ∈ pieceOps ts → s.length < 2 ^ 32 := by
    intro s k fl hm
    obtain ⟨t, _, ht⟩ := List.mem_map.1 hm
    cases ht
  have hnl : ∀ op ∈ pieceOps ts, op.newline = false := by
    intro op hm
    obtain ⟨t, _, ht⟩ := List.mem_map.1 hm
    cases ht
    rfl
  refine ⟨ds, hds, fun sched => ?_, fun c => ⟨?_, ?_⟩⟩
  · obtain ⟨b1, e1, _⟩ := runLogs_spec (pieceOps ts) ⟨8192, [], [], sched⟩ (by show 0 < 8192; omega) (by simp) (Or.inr hnl) hs
    obtain ⟨_, b2, e2, _⟩ := flushIgnore_spec b1
    exact ⟨_, by rw [hrun, e1, Out.bind_ok, e2, Out.bind_ok]⟩
  · rintro ⟨sched, e⟩
    rw [hrun] at e
    obtain ⟨b1, e1, e⟩ := Out.bind_eq_ok.1 e
    obtain ⟨b2, e2, e⟩ := Out.bind_eq_ok.1 e
    obtain ⟨_, c1, g1, g2⟩ := runPieces_pushed ts _ _ (by simp) e1
    injection e with e
    injection e with _ _ _ e
    dsimp only at g1 g2
    rw [List.nil_append] at g1 g2
    rw [hts] at g2
    rcases (flushIgnore_cases e2).2 with ⟨_, k1⟩ | ⟨_, p, k1, _, k2⟩
    · exact ⟨c1, b1.data, b1.data, g2, List.prefix_refl _, by rw [← e, k1, g1]⟩
    · exact ⟨c1, b1.data, p, g2, k1, by rw [← e, k2, g1]⟩
  · rintro ⟨c1, R, c2, g1, g2, rfl⟩
    rw [← hts] at g1
    obtain ⟨q1, hq1⟩ := runPieces_possible (by omega) ts [] c1 R (by simp) g1
    obtain ⟨q2, b', e2, k2⟩ := flush_possible (cap := 8192) (sink := [] ++ c1) g2
    refine ⟨q1 ++ q2, ?_⟩
    rw [hrun, hq1, Out.bind_ok, e2, Out.bind_ok, k2]
    rfl

/-- **C71** In particular a document of at most 8192 bytes arrives as a beginning of itself; of a longer one nothing but at most 8192
bytes is missing (in the order of the document, with repeated parts between them if writes failed). -/
theorem C71_lost_partial (P c : Str) (h : Delivered 8192 P c) :
    (P.length ≤ 8192 → c <+: P) ∧ ∃ lost, lost.length ≤ 8192 ∧ P.Sublist (c ++ lost) := by
  refine ⟨fun hl => (delivered_small hl).1 h, ?_⟩
  obtain ⟨c1, R, c2, h1, ⟨r, rfl⟩, rfl⟩ := h
  have hs := h1.sublist
  have hr := h1.left
  refine ⟨r, by rw [List.length_append] at hr; omega, ?_⟩
  rw [List.append_assoc]
  exact hs

/-- `abcde` on a buffer of two bytes: the file gets `a` and reports an error, then `ab`, then `cd`; `e` stays in the buffer. -/
example : Pushed 2 b!"abcde" b!"aabcd" b!"e" ∧ runLogs [.append b!"abc" ⟨false, false⟩, .append b!"de" ⟨false, false⟩]
    ⟨2, [], [], [some 1, none, some 2, some 2]⟩ = .ok ⟨2, b!"e", b!"aabcd", []⟩ :=
  ⟨.failed (p := b!"a") (c := b!"abcd") (by decide) (by decide) (by decide) (.delivered (c := b!"cd") (by decide)
    (.delivered (c := []) (by decide) (.fits (by decide)))), by decide +kernel⟩

end Flo
