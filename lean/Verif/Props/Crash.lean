import Verif.Proofs.CrashPrepend
import Verif.Proofs.CrashRetry
import Verif.Proofs.Sat
import Verif.Spec.Room
import Verif.Props.Edit
/-!
# The DOM that a failing call leaves (C125–C127)

A call that runs out of memory leaves through the failure exit of its arena.  The exit may be taken at every allocation; the DOM stays as it is at that
moment, and a program that catches the failure goes on with it.  `Fails junk op d d'` (`Spec/Crash.lean`): called on `d`, the function leaves through the
failure exit with `d'`, for some amount of memory.
-/
namespace Flo
open Spec Crash

namespace Crash

theorem sim_drop {m : CM Nat} {d : Dom} {o : Out (Nat × Dom)} (h : Sim id m d o) : Sim un (dropC m) d (dropValue o) := by
  unfold dropC dropValue
  exact h.bind fun ⟨i, x⟩ _ => Sim.pure rfl

theorem sim_attr (op : AttrOp) (d : Dom) : Sim un (runAttrC op) d (runAttr op d) := by
  cases op with
  | add n k v => exact sim_addProperty n k v d
  | addBool n b => exact sim_addBool n b d
  | set n k v => exact (sim_setValue n k v d).bind fun ⟨i, x⟩ _ => Sim.pure rfl
  | remove n k => exact Sim.writeEnd rfl
  | removeBool n b => exact Sim.writeEnd rfl

theorem sim_op (junk : Nat → Out Bool) (op : Op) (d : Dom) : Sim un (runOpC junk op) d (runOp junk op d) := by
  cases op with
  | attr op => exact sim_attr op d
  | addText n t a => exact sim_addText n t a d
  | setTag t n p => exact sim_setTag t n p d
  | setText n t => exact sim_setTextContent n t d
  | removeNode n => exact Sim.change (g := removeNode n)
  | removeChildren n => exact Sim.change (g := removeChildren n)
  | appendDoc p doc => exact sim_drop (sim_appendDoc p doc d)
  | appendText p t => exact sim_drop (sim_appendText p t d)
  | appendHTML p h => exact sim_drop (sim_appendHTML junk p h d)
  | prependDoc p doc => exact sim_drop (sim_prependDoc p doc d)
  | prependText p t => exact sim_drop (sim_prependText p t d)
  | prependHTML p h => exact sim_drop (sim_prependHTML junk p h d)
  | replaceDoc n doc => exact sim_drop (sim_replaceDoc n doc d)
  | replaceText n t => exact sim_drop (sim_replaceText n t d)
  | replaceHTML n h => exact sim_drop (sim_replaceHTML junk n h d)

theorem drop_fail {m : CM Nat} {k : Nat} {d x : Dom} (h : dropC m k d = .fail x) : m k d = .fail x := by
  unfold dropC at h
  rw [bind_run] at h
  cases e : m k d with
  | done a y j => rw [e] at h; cases h
  | fail y => rw [e] at h; cases h; rfl
  | stop => rw [e] at h; cases h

theorem removeChildren_noJump (n : Nat) (d : Dom) : removeChildren n d ≠ .longjmp :=
  removeChildrenLoop_noJump (removeNodeF_noJump _) n _ d

theorem change_fail {f : Dom → Out Dom} (hf : ∀ d, f d ≠ .longjmp) {k : Nat} {d x : Dom} : CM.change f k d ≠ .fail x := by
  unfold CM.change
  intro h
  cases e : f d with
  | ok a => rw [e] at h; cases h
  | longjmp => exact hf d e
  | ub w => rw [e] at h; cases h
  | hang => rw [e] at h; cases h

end Crash

/-- **C125**, the programs.  With memory enough — that is, from some number of allocations on — the call does what the model of the other properties says it does, and
with less it leaves through the failure exit; it does not return in any other way. -/
theorem C125_program (junk : Nat → Out Bool) (op : Op) (d d' : Dom) :
    (runOp junk op d = .ok d' → ∃ c, (∀ k, runOpC junk op (c + k) d = .done () d' k) ∧ ∀ k, k < c → ∃ x, runOpC junk op k d = .fail x) ∧
    ∀ k j, runOpC junk op k d = .done () d' j → runOp junk op d = .ok d' := by
  have hs := sim_op junk op d
  refine ⟨fun e => ?_, fun k j e => ?_⟩
  · rw [e] at hs; exact hs
  · obtain ⟨b, h1, h2⟩ := hs.done_ok e
    have : b = d' := congrArg Prod.snd h2
    rw [h1, this]

/-- **C125**, removing: the calls that remove nodes or attributes take no memory and never leave through the failure exit. -/
theorem C125_remove (junk : Nat → Out Bool) (d d' : Dom) (n : Nat) (s : Str) :
    ¬ Fails junk (.removeNode n) d d' ∧ ¬ Fails junk (.removeChildren n) d d' ∧ ¬ Fails junk (.attr (.remove n s)) d d' ∧
    ¬ Fails junk (.attr (.removeBool n s)) d d' := by
  refine ⟨fun ⟨k, h⟩ => ?_, fun ⟨k, h⟩ => ?_, fun ⟨k, h⟩ => ?_, fun ⟨k, h⟩ => ?_⟩
  · exact change_fail (removeNode_noJump n) h
  · exact change_fail (removeChildren_noJump n) h
  · cases h
  · cases h

/-- **C125**, the calls that add or change attributes, texts and tags.  Wherever such a call fails, everything that is read of the document is as it was, and so is the
text printed. -/
theorem C125_attributes (d : Dom) (h : Reachable d) (junk : Nat → Out Bool) (d' : Dom) :
    (∀ a, Fails junk (.attr a) d d' → SameReadings d d') ∧ (∀ n t e, Fails junk (.addText n t e) d d' → SameReadings d d') ∧
    (∀ t n p, Fails junk (.setTag t n p) d d' → SameReadings d d') := by
  have hi := (reach_domI h).1
  have hc := closed_ext d
  have h0 := Ext.rfl' d
  refine ⟨fun a ⟨k, e⟩ => ?_, fun n t a ⟨k, e⟩ => ?_, fun t n p ⟨k, e⟩ => ?_⟩
  · cases a with
    | add n key v => exact ((addProperty_fail hc.toInterning n key v).fails h0 e).same hi
    | addBool n b => exact ((addBool_fail hc.toInterning n b).fails h0 e).same hi
    | set n key v =>
      exact (Tri.fails (m := runAttrC (.set n key v)) ((setValue_fail hc.toInterning n key v).bind fun _ => Tri.pure (R := fun _ _ => True) fun _ _ => trivial) h0 e).same hi
    | remove n key => cases e
    | removeBool n b => cases e
  · exact ((addText_fail hc.toInterning n t a).fails h0 e).same hi
  · exact ((setTag_fail hc.toInterning t n p).fails h0 e).same hi

/-- **C125**, replacing a node by an element or by a text. -/
theorem C125_replace (d : Dom) (h : Reachable d) (junk : Nat → Out Bool) (n : Nat) (d' : Dom) :
    (∀ doc, Fails junk (.replaceDoc n doc) d d' → SameReadings d d') ∧ (∀ t, Fails junk (.replaceText n t) d d' → SameReadings d d') := by
  have hi := (reach_domI h).1
  have h0 : Built d d := ⟨Ext.rfl' d, rfl, rfl, rfl⟩
  refine ⟨fun doc ⟨k, e⟩ => ?_, fun t ⟨k, e⟩ => ?_⟩
  · exact ((replaceDoc_fails hi n doc).fails h0 (drop_fail e)).same hi
  · exact ((replaceText_fails hi n t).fails h0 (drop_fail e)).same hi

/-- **C125**, appending an element or a text.  Missing: the call may fail after the new node was linked and before its row in the table of parents was written; the
document then is, and prints, as after a successful call, but the new node has no parent. -/
theorem C125_append_partial (d : Dom) (h : Reachable d) (junk : Nat → Out Bool) (op : Op)
    (hop : (∃ p doc, op = .appendDoc p doc) ∨ ∃ p t, op = .appendText p t) (d' : Dom) (hf : Fails junk op d d') :
    SameReadings d d' ∨ ∃ y, runOp junk op d = .ok y ∧ SameButParents y d' ∧ d'.pc = d.pc ∧ printHTML d' = printHTML y := by
  have hi := (reach_domI h).1
  obtain ⟨k, e⟩ := hf
  have fin : ∀ o, Left d o d' → SameReadings d d' ∨ ∃ y, dropValue o = .ok y ∧ SameButParents y d' ∧ d'.pc = d.pc ∧ printHTML d' = printHTML y := by
    rintro o (h | ⟨i, y, ho, h1, h2⟩)
    · exact Or.inl (h.same hi)
    · refine Or.inr ⟨y, by rw [ho]; rfl, h1, h2, ?_⟩
      rw [h1]; exact print_pc y _
  rcases hop with ⟨p, doc, rfl⟩ | ⟨p, t, rfl⟩
  · exact fin _ (appendDoc_left hi (drop_fail e))
  · exact fin _ (appendText_left hi (drop_fail e))

/-- **C125**, prepending an element or a text to a node.  Missing: when it fails, the document is (1) as before, or (2) is, and prints, as after a successful call but lacks rows in the
table of parents, or (3) has lost what the node contained: the node was not empty, its only child is now the new node, and nothing else has changed. -/
theorem C125_prepend_partial (d : Dom) (h : Reachable d) (junk : Nat → Out Bool) (op : Op) (p : Nat) (hp : IsNode d p)
    (hop : (∃ doc, op = .prependDoc p doc) ∨ ∃ t, op = .prependText p t) (d' : Dom) (hf : Fails junk op d d') :
    SameReadings d d' ∨ (∃ y, runOp junk op d = .ok y ∧ SameButParents y d' ∧ printHTML d' = printHTML y) ∨
      (getFirstChild p d ≠ 0 ∧ ¬ IsNode d (getFirstChild p d') ∧ getNext (getFirstChild p d') d' = 0 ∧
        ∀ m, IsNode d m → SameNode d d' m ∧ (m ≠ p → getFirstChild m d' = getFirstChild m d) ∧ getNext m d' = getNext m d ∧ getPrevious m d' = getPrevious m d ∧
          getParent m d' = getParent m d) := by
  obtain ⟨hi, h0⟩ := reach_domI h
  obtain ⟨k, e⟩ := hf
  have fin : ∀ o, LeftP p d o d' → SameReadings d d' ∨ (∃ y, dropValue o = .ok y ∧ SameButParents y d' ∧ printHTML d' = printHTML y) ∨
      (getFirstChild p d ≠ 0 ∧ ¬ IsNode d (getFirstChild p d') ∧ getNext (getFirstChild p d') d' = 0 ∧
        ∀ m, IsNode d m → SameNode d d' m ∧ (m ≠ p → getFirstChild m d' = getFirstChild m d) ∧ getNext m d' = getNext m d ∧ getPrevious m d' = getPrevious m d ∧
          getParent m d' = getParent m d) := by
    rintro o (h | ⟨i, y, ho, h1 | ⟨x, hx, hid, hl⟩⟩)
    · exact Or.inl (h.same hi)
    · refine Or.inr (Or.inl ⟨y, by rw [ho]; rfl, h1, ?_⟩)
      rw [h1]; exact print_pc y _
    · refine Or.inr (Or.inr ?_)
      have hs := hx.same hi
      refine ⟨?_, ?_, ?_, fun m hm => ?_⟩
      · rw [← hs.first p hp.1 hp.2]; exact hl.had
      · rw [hl.first, hid]; exact fun h => Nat.lt_irrefl _ h.2
      · rw [hl.first]; exact hl.last
      · have h1 := hl.others m
        obtain ⟨q, hq⟩ := hl.base
        refine ⟨?_, fun hne => (h1 hne).trans (hs.first m hm.1 hm.2), ?_, ?_, ?_⟩
        · rw [hq]
          have hn := hs.node m hm.1 hm.2
          exact ⟨hn.type, hn.text, hn.tag, hn.pairs, hn.bools⟩
        · rw [hq]; exact hs.next m hm.1 hm.2
        · rw [hq]; exact hs.previous m hm.1 hm.2
        · rw [hq]; exact hs.parent m hm.1 hm.2
  rcases hop with ⟨doc, rfl⟩ | ⟨t, rfl⟩
  · exact fin _ (prependDoc_left hi h0 hp.1 hp.2 (drop_fail e))
  · exact fin _ (prependText_left hi h0 hp.1 hp.2 (drop_fail e))

/-- **C125**, setting the text of a node.  Missing: the old children are removed first, and are gone whenever the call fails: the document is as after removing them, or is, and
prints, as after a successful call but lacks the row in the table of parents. -/
theorem C125_setText_partial (d : Dom) (h : Reachable d) (junk : Nat → Out Bool) (hj : Reads junk) (n : Nat) (hn : IsNode d n) (t : Str) (d' : Dom)
    (hf : Fails junk (.setText n t) d d') :
    ∃ d1, runOp junk (.removeChildren n) d = .ok d1 ∧
      (SameReadings d1 d' ∨ ∃ y, runOp junk (.setText n t) d = .ok y ∧ SameButParents y d' ∧ printHTML d' = printHTML y) := by
  obtain ⟨k, e⟩ := hf
  obtain ⟨d1, e1, h1⟩ := setText_left (reach_domI h).1 hn.1 hn.2 e
  refine ⟨d1, e1, ?_⟩
  rcases h1 with h1 | ⟨y, hy, h1⟩
  · exact Or.inl (h1.same (reach_domI (.edited (op := .removeChildren n) hj h hn e1)).1)
  · refine Or.inr ⟨y, hy, h1, ?_⟩
    rw [h1]; exact print_pc y _

/-- The result of a program that fails. -/
def failAnd {α : Type} (x : CRes α) (p : Dom → Bool) : Bool :=
  match x with
  | .fail d => p d
  | _ => false

theorem failAnd_ex {α : Type} {x : CRes α} {p : Dom → Bool} (h : failAnd x p = true) : ∃ d, x = .fail d ∧ p d = true := by
  cases x with
  | fail d => exact ⟨d, rfl, h⟩
  | _ => cases h

def isUb {α : Type} : Out α → Bool
  | .ub _ => true
  | _ => false

def failDoc : Str := b!"<p>a<b></b></p>"

def crashJunk : Nat → Out Bool := fun _ => .ok false

/-- **C125**, failing: calls that leave the document neither as it was nor as it was to be.  In `<p>a<b></b></p>`, prepending an element to `p` may lose all that `p`
contained; setting its text may leave it empty; appending an element may leave a child without parent; replacing the text `a` by HTML may lose the sibling that follows it. -/
theorem C125_violated : ∃ d, createDom failDoc = .ok (some d) ∧
    (∃ d', Fails crashJunk (.prependDoc 2 ⟨b!"i", true, [], []⟩) d d' ∧ printHTML d' = .ok b!"<p><i></i></p>") ∧
    (∃ d', Fails crashJunk (.setText 2 b!"new") d d' ∧ printHTML d' = .ok b!"<p></p>") ∧
    (∃ d', Fails crashJunk (.appendDoc 2 ⟨b!"i", true, [], []⟩) d d' ∧ printHTML d' = .ok b!"<p>a<b></b><i></i></p>" ∧ getParent 5 d' = 0) ∧
    (∃ d', Fails crashJunk (.replaceHTML 3 b!"<i></i>new<u></u>") d d' ∧ printHTML d' = .ok b!"<p><i></i>new<u></u></p>") := by
  have hex : ∃ d, createDom failDoc = .ok (some d) ∧
      ((failAnd (runOpC crashJunk (.prependDoc 2 ⟨b!"i", true, [], []⟩) 3 d) (fun x => okAnd (printHTML x) (· == b!"<p><i></i></p>")) = true ∧
      failAnd (runOpC crashJunk (.setText 2 b!"new") 0 d) (fun x => okAnd (printHTML x) (· == b!"<p></p>")) = true) ∧
      failAnd (runOpC crashJunk (.appendDoc 2 ⟨b!"i", true, [], []⟩) 4 d)
        (fun x => okAnd (printHTML x) (· == b!"<p>a<b></b><i></i></p>") && getParent 5 x == 0) = true ∧
      failAnd (runOpC crashJunk (.replaceHTML 3 b!"<i></i>new<u></u>") 10 d) (fun x => okAnd (printHTML x) (· == b!"<p><i></i>new<u></u></p>")) = true) := by
    obtain ⟨d, hd, hp⟩ := someAnd_ex (x := createDom failDoc) (p := fun d =>
      (failAnd (runOpC crashJunk (.prependDoc 2 ⟨b!"i", true, [], []⟩) 3 d) (fun x => okAnd (printHTML x) (· == b!"<p><i></i></p>")) &&
      failAnd (runOpC crashJunk (.setText 2 b!"new") 0 d) (fun x => okAnd (printHTML x) (· == b!"<p></p>"))) &&
      (failAnd (runOpC crashJunk (.appendDoc 2 ⟨b!"i", true, [], []⟩) 4 d)
        (fun x => okAnd (printHTML x) (· == b!"<p>a<b></b><i></i></p>") && getParent 5 x == 0) &&
      failAnd (runOpC crashJunk (.replaceHTML 3 b!"<i></i>new<u></u>") 10 d) (fun x => okAnd (printHTML x) (· == b!"<p><i></i>new<u></u></p>"))))
      (by decide +kernel)
    simp only [Bool.and_eq_true] at hp
    exact ⟨d, hd, hp⟩
  obtain ⟨d, hd, ⟨h1, h2⟩, h3, h4⟩ := hex
  have pr : ∀ {x : Dom} {t : Str}, okAnd (printHTML x) (· == t) = true → printHTML x = .ok t := by
    intro x t h
    obtain ⟨a, ha, hb⟩ := okAnd_ex h
    rw [ha, eq_of_beq hb]
  obtain ⟨x1, f1, p1⟩ := failAnd_ex h1
  obtain ⟨x2, f2, p2⟩ := failAnd_ex h2
  obtain ⟨x3, f3, p3⟩ := failAnd_ex h3
  obtain ⟨x4, f4, p4⟩ := failAnd_ex h4
  rw [Bool.and_eq_true] at p3
  exact ⟨d, hd, ⟨x1, ⟨_, f1⟩, pr p1⟩, ⟨x2, ⟨_, f2⟩, pr p2⟩, ⟨x3, ⟨_, f3⟩, pr p3.1, eq_of_beq p3.2⟩, ⟨x4, ⟨_, f4⟩, pr p4⟩⟩

/-! ## Fragments -/

/-- **C126.**  A fragment that is parsed into the document, but not (yet) attached to it, is not seen: wherever its parse fails, when it is refused, and even when it is
complete, everything that is read of the nodes of the document is as before, and so is the text printed. -/
theorem C126_fragment (d : Dom) (h : Reachable d) (junk : Nat → Out Bool) (html : Str) :
    (∀ k d', parseExtraC junk html k d = .fail d' → SameReadings d d') ∧ (∀ r, parseExtra junk html d = .ok r → SameReadings d r.dom) := by
  have hi := (reach_domI h).1
  have ht := parseExtra_tri d junk html
  refine ⟨fun k d' e => (ht.fails (Ext.rfl' d) e).same hi, fun r e => ?_⟩
  have hs := sim_parseExtra junk html d
  rw [e] at hs
  obtain ⟨c, h1, _⟩ := hs
  have := ht (c + 0) d (Ext.rfl' d)
  rw [h1 0] at this
  exact Ext.same this hi

/-- **C126**, for the calls that take HTML: as long as the parse of the fragment is not over, a failing call leaves the document as it was. -/
theorem C126_calls (d : Dom) (h : Reachable d) (junk : Nat → Out Bool) (n : Nat) (html : Str) (k : Nat) (d' : Dom)
    (hp : ∀ ok x j, parseExtraC junk html k d ≠ .done ok x j) :
    (runOpC junk (.appendHTML n html) k d = .fail d' → SameReadings d d') ∧ (runOpC junk (.prependHTML n html) k d = .fail d' → SameReadings d d') ∧
    (runOpC junk (.replaceHTML n html) k d = .fail d' → SameReadings d d') := by
  have key : ∀ (f : Nat → Bool → CM Nat), (do
      let a ← CM.read fun d => d.nodes.length
      let ok ← parseExtraC junk html
      f a ok : CM Nat) k d = .fail d' → SameReadings d d' := by
    intro f e
    rw [bind_run] at e
    simp only [CM.read] at e
    rw [bind_run] at e
    cases hm : parseExtraC junk html k d with
    | done ok x j => exact absurd hm (hp ok x j)
    | fail x => rw [hm] at e; cases e; exact (C126_fragment d h junk html).1 k _ hm
    | stop => rw [hm] at e; cases e
  exact ⟨fun e => key _ (drop_fail e), fun e => key _ (drop_fail e), fun e => key _ (drop_fail e)⟩

/-! ## Calling again -/

/-- **C127**, adding and changing attributes, texts and tags.  If the failing call has left no number without its name, then calling again with memory enough does exactly what
the first call would have done.  Missing: failures between the two allocations of a new name, after which the document is broken (`C127_violated`), and the calls that create
nodes, whose identifiers are lost. -/
theorem C127_again_partial (d : Dom) (h : Reachable d) (junk : Nat → Out Bool) (d' : Dom) (hw : WholeNames d') :
    (∀ a, Fails junk (.attr a) d d' → runOp junk (.attr a) d' = runOp junk (.attr a) d) ∧
    (∀ n t e, Fails junk (.addText n t e) d d' → runOp junk (.addText n t e) d' = runOp junk (.addText n t e) d) ∧
    (∀ t n p, Fails junk (.setTag t n p) d d' → runOp junk (.setTag t n p) d' = runOp junk (.setTag t n p) d) := by
  have hN := (reach_domI h).1.names
  refine ⟨fun a ⟨k, e⟩ => ?_, fun n t a ⟨k, e⟩ => ?_, fun t n p ⟨k, e⟩ => ?_⟩
  · cases a with
    | add n key v => exact addProperty_again hN e hw
    | addBool n b => exact addBool_again hN e hw
    | set n key v =>
      have e' : setPropertyValueC n key v k d = .fail d' := by
        have e : (do let _ ← setPropertyValueC n key v; pure () : CM Unit) k d = .fail d' := e
        rw [bind_run] at e
        cases hm : setPropertyValueC n key v k d with
        | done a y j => rw [hm] at e; cases e
        | fail y => rw [hm] at e; cases e; rfl
        | stop => rw [hm] at e; cases e
      rw [setValue_again hN e' hw]
    | remove n key => cases e
    | removeBool n b => cases e
  · rw [addText_exact e]
  · rw [setTag_again hN e hw]

/-- **C127**: a document that was parsed and edited without failure has no number without its name, and neither has one whose failing call added no new name. -/
theorem C127_whole (d : Dom) (h : Reachable d) : WholeNames d := whole_of (reach_domI h).1.names

/-- **C127**, failing.  In `<p></p>`, the boolean attribute `id` is added, and the memory runs out between the two allocations that a new name takes.  (1) Calling again succeeds, and
then the document cannot be printed: printing reads outside the table of names.  (2) When, instead, `title` and `class` are added to `p` and `class` is removed again, all
successfully, the paragraph is printed with `class`. -/
theorem C127_violated : ∃ d, createDom b!"<p></p>" = .ok (some d) ∧ ∃ d', Fails crashJunk (.attr (.addBool 2 b!"id")) d d' ∧ ¬ WholeNames d' ∧
    (∃ y, runOp crashJunk (.attr (.addBool 2 b!"id")) d' = .ok y ∧ ∃ w, printHTML y = .ub w) ∧
    ∃ y, runOps crashJunk [.attr (.addBool 2 b!"title"), .attr (.addBool 2 b!"class"), .attr (.removeBool 2 b!"class")] d' = .ok y ∧
      hasBoolProp 2 b!"title" y = true ∧ hasBoolProp 2 b!"class" y = false ∧ printHTML y = .ok b!"<p class></p>" := by
  have hex : ∃ d, createDom b!"<p></p>" = .ok (some d) ∧ failAnd (runOpC crashJunk (.attr (.addBool 2 b!"id")) 1 d) (fun x =>
      !(x.boolReg.length == x.boolMap.identity + 1) &&
      okAnd (runOp crashJunk (.attr (.addBool 2 b!"id")) x) (fun y => isUb (printHTML y)) &&
      okAnd (runOps crashJunk [.attr (.addBool 2 b!"title"), .attr (.addBool 2 b!"class"), .attr (.removeBool 2 b!"class")] x) (fun y =>
        (hasBoolProp 2 b!"title" y && !hasBoolProp 2 b!"class" y) && okAnd (printHTML y) (· == b!"<p class></p>"))) = true :=
    someAnd_ex (x := createDom b!"<p></p>") (by decide +kernel)
  obtain ⟨d, hd, hf⟩ := hex
  obtain ⟨x, hx, hp⟩ := failAnd_ex hf
  rw [Bool.and_eq_true, Bool.and_eq_true] at hp
  obtain ⟨⟨h1, h2⟩, h3⟩ := hp
  obtain ⟨y, hy, hu⟩ := okAnd_ex h2
  obtain ⟨z, hz, hq⟩ := okAnd_ex h3
  rw [Bool.and_eq_true, Bool.and_eq_true] at hq
  obtain ⟨⟨q1, q2⟩, q3⟩ := hq
  obtain ⟨s, hs, hb⟩ := okAnd_ex q3
  refine ⟨d, hd, x, ⟨1, hx⟩, fun hw => ?_, ⟨y, hy, ?_⟩, z, hz, q1, by simpa using q2, by rw [hs, eq_of_beq hb]⟩
  · simp [hw.bool] at h1
  · unfold isUb at hu
    split at hu
    · exact ⟨_, by assumption⟩
    · cases hu

/-! ## Concrete cases -/

/-- A call that fails, and a document it fails on (C125, C126): the hypotheses can be met. -/
example : ∃ d, Reachable d ∧ (∃ d', Fails crashJunk (.attr (.add 2 b!"id" b!"1")) d d') ∧ (∃ d', Fails crashJunk (.replaceDoc 3 ⟨b!"i", true, [], []⟩) d d') ∧
    (∃ d', Fails crashJunk (.appendText 2 b!"x") d d') ∧ (∃ k d', parseExtraC crashJunk b!"<i>x</i>" k d = .fail d') ∧
    ∃ d', WholeNames d' ∧ Fails crashJunk (.attr (.add 2 b!"id" b!"1")) d d' ∧ d'.keyReg ≠ d.keyReg := by
  obtain ⟨d, hd, hp⟩ := someAnd_ex (x := createDom failDoc) (p := fun d =>
    failAnd (runOpC crashJunk (.attr (.add 2 b!"id" b!"1")) 2 d) (fun x => (x.tagReg.length == x.tagMap.identity + 1 && x.boolReg.length == x.boolMap.identity + 1) &&
      (x.keyReg.length == x.keyMap.identity + 1 && x.valReg.length == x.valMap.identity + 1) && !(x.keyReg == d.keyReg)) &&
    failAnd (runOpC crashJunk (.replaceDoc 3 ⟨b!"i", true, [], []⟩) 2 d) (fun _ => true) &&
    failAnd (runOpC crashJunk (.appendText 2 b!"x") 3 d) (fun _ => true) &&
    failAnd (parseExtraC crashJunk b!"<i>x</i>" 3 d) (fun _ => true)) (by decide +kernel)
  rw [Bool.and_eq_true, Bool.and_eq_true, Bool.and_eq_true] at hp
  obtain ⟨⟨⟨h1, h2⟩, h3⟩, h4⟩ := hp
  obtain ⟨x1, f1, p1⟩ := failAnd_ex h1
  obtain ⟨x2, f2, _⟩ := failAnd_ex h2
  obtain ⟨x3, f3, _⟩ := failAnd_ex h3
  obtain ⟨x4, f4, _⟩ := failAnd_ex h4
  simp only [Bool.and_eq_true, beq_iff_eq, Bool.not_eq_true', beq_eq_false_iff_ne] at p1
  obtain ⟨⟨⟨a, b⟩, c, e⟩, g⟩ := p1
  exact ⟨d, .parsed hd, ⟨x1, _, f1⟩, ⟨x2, _, f2⟩, ⟨x3, _, f3⟩, ⟨_, x4, f4⟩, x1, ⟨a, b, c, e⟩, ⟨_, f1⟩, g⟩

end Flo
