import Verif.Proofs.CrashPrintOps
import Verif.Props.Crash
/-!
# After a failing call the document can be printed (C129); what a failing edit of a list of children has done (C130)
-/
namespace Flo
open Spec Crash

/-- **C129.**  Wherever an allowed call fails, the document it leaves can be printed: the call that prints returns a text. -/
theorem C129_prints (d : Dom) (h : Reachable d) (junk : Nat → Out Bool) (hj : Reads junk) (op : Op) (ha : Allowed junk d op) (d' : Dom)
    (hf : Fails junk op d d') : ∃ t, printHTML d' = .ok t := by
  obtain ⟨hi, h0⟩ := reach_domI h
  have hp : CanPrint d := linked_prints hi
  obtain ⟨t, ht⟩ := hp
  have same : SameReadings d d' → ∃ t, printHTML d' = .ok t := fun hs => ⟨t, hs.print t ht⟩
  have hr := C125_remove junk d d'
  have hat := C125_attributes d h junk d'
  have hrep := C125_replace d h junk
  cases op with
  | attr a => exact same (hat.1 a hf)
  | addText n t e => exact same (hat.2.1 n t e hf)
  | setTag t n p => exact same (hat.2.2 t n p hf)
  | setText n t => exact hf.elim fun k e => setText_tp hi h0 ha.1 ha.2 t k d' e
  | removeNode n => exact absurd hf (hr n []).1
  | removeChildren n => exact absurd hf (hr n []).2.1
  | appendDoc p doc => exact hf.elim fun k e => (appendDoc_tp hi h0 ha.1 ha.2 doc k d' (drop_fail e)).1
  | appendText p t => exact hf.elim fun k e => (appendText_tp hi h0 ha.1 ha.2 t k d' (drop_fail e)).1
  | appendHTML p s => exact hf.elim fun k e => (appendHTML_tp hi h0 hj ha.2 ha.1.1 ha.1.2 k d' (drop_fail e)).1
  | prependDoc p doc => exact hf.elim fun k e => (prependDoc_tp hi h0 ha.1 ha.2 doc k d' (drop_fail e)).1
  | prependText p t => exact hf.elim fun k e => (prependText_tp hi h0 ha.1 ha.2 t k d' (drop_fail e)).1
  | prependHTML p s => exact hf.elim fun k e => (prependHTML_tp hi h0 hj ha.2 ha.1.1 ha.1.2 k d' (drop_fail e)).1
  | replaceDoc n doc => exact same ((hrep n d').1 doc hf)
  | replaceText n t => exact same ((hrep n d').2 t hf)
  | replaceHTML n s =>
    obtain ⟨p, l₁, l₂, hp0, he⟩ := HasParent.get hi ha.1
    exact hf.elim fun k e => (replaceHTML_tp hi h0 hj hp0 he ha.2.1 ha.2.2 k d' (drop_fail e)).1

/-- A document, an allowed call on it and a failure that leaves neither the old document nor the new one (C129): the hypotheses can be met. -/
example : ∃ d, Reachable d ∧ Reads crashJunk ∧ Allowed crashJunk d (.prependText 2 b!"x") ∧
    ∃ d', Fails crashJunk (.prependText 2 b!"x") d d' ∧ printHTML d' = .ok b!"<p>x</p>" := by
  obtain ⟨d, hd, hp⟩ := someAnd_ex (x := createDom b!"<p><b></b></p>") (p := fun d =>
    decide (2 < d.nodes.length) && failAnd (runOpC crashJunk (.prependText 2 b!"x") 2 d) (fun x => okAnd (printHTML x) (· == b!"<p>x</p>"))) (by decide +kernel)
  rw [Bool.and_eq_true] at hp
  obtain ⟨x, f, p⟩ := failAnd_ex hp.2
  obtain ⟨t, ht, hb⟩ := okAnd_ex p
  exact ⟨d, .parsed hd, fun _ => ⟨false, rfl⟩, ⟨by decide, of_decide_eq_true hp.1⟩, x, ⟨_, f⟩, by rw [ht, eq_of_beq hb]⟩

/-! ## C130 -/

theorem touch_only {d d' : Dom} {p : Nat} {opt : List Nat → Prop} (h : Reachable d) (t : Touch d (kids d) p opt d') : OnlyKids d d' p opt :=
  ⟨t.2.1, t.2.2.1, t.2.2.2⟩

/-- **C130, appending.**  Wherever appending to `p` fails, the children of `p` are those it had and possibly new nodes behind them; every other
node that was there has the children it had; and every node is as it was, but for a text that may be longer. -/
theorem C130_append (d : Dom) (h : Reachable d) (junk : Nat → Out Bool) (hj : Reads junk) (p : Nat) (op : Op)
    (hop : (∃ doc, op = .appendDoc p doc) ∨ (∃ t, op = .appendText p t) ∨ ∃ s, op = .appendHTML p s) (ha : Allowed junk d op) (d' : Dom)
    (hf : Fails junk op d d') : OnlyKids d d' p (fun l => ∃ new, l = kids d p ++ new ∧ ∀ x ∈ new, d.nodes.length ≤ x) := by
  obtain ⟨hi, h0⟩ := reach_domI h
  obtain ⟨k, e⟩ := hf
  rcases hop with ⟨doc, rfl⟩ | ⟨t, rfl⟩ | ⟨s, rfl⟩
  · exact touch_only h (appendDoc_tp hi h0 ha.1 ha.2 doc k d' (drop_fail e))
  · exact touch_only h (appendText_tp hi h0 ha.1 ha.2 t k d' (drop_fail e))
  · exact touch_only h (appendHTML_tp hi h0 hj ha.2 ha.1.1 ha.1.2 k d' (drop_fail e))

/-- **C130, prepending.**  As above; but the children of `p` are those it had, possibly with new nodes in front, or the new nodes alone: the old
children may be lost. -/
theorem C130_prepend (d : Dom) (h : Reachable d) (junk : Nat → Out Bool) (hj : Reads junk) (p : Nat) (op : Op)
    (hop : (∃ doc, op = .prependDoc p doc) ∨ (∃ t, op = .prependText p t) ∨ ∃ s, op = .prependHTML p s) (ha : Allowed junk d op) (d' : Dom)
    (hf : Fails junk op d d') :
    OnlyKids d d' p (fun l => ∃ new, (l = new ++ kids d p ∨ l = new ∧ new ≠ []) ∧ ∀ x ∈ new, d.nodes.length ≤ x) := by
  obtain ⟨hi, h0⟩ := reach_domI h
  obtain ⟨k, e⟩ := hf
  rcases hop with ⟨doc, rfl⟩ | ⟨t, rfl⟩ | ⟨s, rfl⟩
  · exact touch_only h (prependDoc_tp hi h0 ha.1 ha.2 doc k d' (drop_fail e))
  · exact touch_only h (prependText_tp hi h0 ha.1 ha.2 t k d' (drop_fail e))
  · exact touch_only h (prependHTML_tp hi h0 hj ha.2 ha.1.1 ha.1.2 k d' (drop_fail e))

/-- **C130, replacing by a fragment.**  As above; the children of the parent are those it had, or those before the replaced node and new nodes:
the replaced node and those behind it may be lost. -/
theorem C130_replace (d : Dom) (h : Reachable d) (junk : Nat → Out Bool) (hj : Reads junk) (n : Nat) (s : Str)
    (ha : Allowed junk d (.replaceHTML n s)) (d' : Dom) (hf : Fails junk (.replaceHTML n s) d d') (p : Nat) (hp : p ≠ 0) (before after : List Nat)
    (hk : kids d p = before ++ n :: after) :
    OnlyKids d d' p (fun l => l = kids d p ∨ ∃ new, new ≠ [] ∧ l = before ++ new ∧ ∀ x ∈ new, d.nodes.length ≤ x) := by
  obtain ⟨hi, h0⟩ := reach_domI h
  obtain ⟨k, e⟩ := hf
  exact touch_only h (replaceHTML_tp hi h0 hj hp hk ha.2.1 ha.2.2 k d' (drop_fail e))

/-- **C130, setting a text.**  Wherever setting the text of `n` fails, the nodes below `n` are removed; `n` has no child, or the new text; every node
that was not below `n` is as it was, and every node outside the subtree of `n` has the children it had. -/
theorem C130_setText (d : Dom) (h : Reachable d) (junk : Nat → Out Bool) (n : Nat) (t : Str) (ha : Allowed junk d (.setText n t)) (d' : Dom)
    (hf : Fails junk (.setText n t) d d') :
    (kids d' n = [] ∨ kids d' n = [d.nodes.length] ∧ textOf d' d.nodes.length = some t) ∧
      (∀ m ∈ (preorder d n).tail, typeOf d' m = some .removed) ∧
      (∀ m, m ≠ 0 → m < d.nodes.length → m ∉ (preorder d n).tail → SameNode d d' m) ∧
      ∀ q, q ≠ 0 → q < d.nodes.length → q ∉ preorder d n → kids d' q = kids d q := by
  obtain ⟨hi, h0⟩ := reach_domI h
  obtain ⟨k, e⟩ := hf
  have hn := ha.1
  have hlt := ha.2
  rw [preorder_eq hi.linked hn hlt]
  have hin : ∀ m ∈ (pre d.nodes.length (kids d) n).tail, m ≠ 0 ∧ m < d.nodes.length := fun m hm => by
    rw [pre_eq hi.linked.up hlt, List.tail_cons, List.mem_flatMap] at hm
    obtain ⟨c, hc, hm⟩ := hm
    have hr := hi.linked.range n c hc
    have := pre_ge hi.linked.up c hr.2.2 m hm
    omega
  obtain ⟨d1, e1, h1⟩ := setText_left hi hn hlt e
  obtain ⟨d2, e2, i2, s2, g2, n2⟩ := dropKids hi hn hlt
  rw [e1] at e2
  cases e2
  have hself : dropBelow d.nodes.length (kids d) n n = [] := by unfold dropBelow; rw [if_pos (mem_pre_self hlt)]
  have hother : ∀ q, q ∉ pre d.nodes.length (kids d) n → dropBelow d.nodes.length (kids d) n q = kids d q := fun q hq => by
    unfold dropBelow; rw [if_neg hq]
  rcases h1 with h1 | ⟨y, hy, h1⟩
  · have hr := (h1.same i2).node
    rw [n2] at hr
    refine ⟨Or.inl ?_, fun m hm => ?_, fun m m0 mlt hm => (s2 m hm).trans (hr m m0 mlt), fun q q0 qlt hq => ?_⟩
    · rw [ext_kids i2 h1 hn (by omega), hself]
    · rw [(hr m (hin m hm).1 (hin m hm).2).type]; exact g2 m hm
    · rw [ext_kids i2 h1 q0 (by omega), hother q hq]
  · have hp := setText_spec hi h0 hn hlt t
    rw [hy] at hp
    obtain ⟨i3, ht, _, s3, g3, _⟩ := hp
    have hs := SameButParents.nodes h1
    refine ⟨Or.inr ⟨?_, ?_⟩, fun m hm => ?_, fun m m0 mlt hm => (s3 m hm (by omega)).trans (hs m), fun q q0 qlt hq => ?_⟩
    · rw [SameButParents.kids h1, i3.linked.kids_eq hn, upd_same]
    · rw [(hs _).text]; exact ht
    · rw [(hs m).type]; exact g3 m hm
    · rw [SameButParents.kids h1, i3.linked.kids_eq q0, upd_ne (by rintro rfl; exact hq (mem_pre_self hlt)), hother q hq]

/-- **C130, the other calls.**  Wherever a call fails that changes attributes, a text or a tag, or that replaces a node by an element or by a text, every
node that was there is as it was and has the children it had. -/
theorem C130_others (d : Dom) (h : Reachable d) (junk : Nat → Out Bool) (op : Op) (hop : (∃ a, op = .attr a) ∨ (∃ n t e, op = .addText n t e) ∨
    (∃ t n p, op = .setTag t n p) ∨ (∃ n doc, op = .replaceDoc n doc) ∨ ∃ n t, op = .replaceText n t) (d' : Dom) (hf : Fails junk op d d') :
    ∀ n, n ≠ 0 → n < d.nodes.length → SameNode d d' n ∧ kids d' n = kids d n := by
  have hi := (reach_domI h).1
  have hc := closed_ext d
  have h0 := Ext.rfl' d
  have h1 : Built d d := ⟨Ext.rfl' d, rfl, rfl, rfl⟩
  have fin : Ext d d' → ∀ n, n ≠ 0 → n < d.nodes.length → SameNode d d' n ∧ kids d' n = kids d n :=
    fun he n n0 nlt => ⟨(he.same hi).node n n0 nlt, ext_kids hi he n0 nlt⟩
  obtain ⟨k, e⟩ := hf
  rcases hop with ⟨a, rfl⟩ | ⟨n, t, b, rfl⟩ | ⟨t, n, p, rfl⟩ | ⟨n, doc, rfl⟩ | ⟨n, t, rfl⟩
  · cases a with
    | add n key v => exact fin ((addProperty_fail hc.toInterning n key v).fails h0 e)
    | addBool n b => exact fin ((addBool_fail hc.toInterning n b).fails h0 e)
    | set n key v =>
      exact fin (Tri.fails (m := runAttrC (.set n key v)) ((setValue_fail hc.toInterning n key v).bind fun _ => Tri.pure (R := fun _ _ => True) fun _ _ => trivial) h0 e)
    | remove n key => cases e
    | removeBool n b => cases e
  · exact fin ((addText_fail hc.toInterning n t b).fails h0 e)
  · exact fin ((setTag_fail hc.toInterning t n p).fails h0 e)
  · exact fin ((replaceDoc_fails hi n doc).fails h1 (drop_fail e))
  · exact fin ((replaceText_fails hi n t).fails h1 (drop_fail e))

/-- A replacement that fails and loses the node behind the replaced one (C130): the hypotheses can be met, and the loss occurs. -/
example : ∃ d, Reachable d ∧ Reads crashJunk ∧ kids d 2 = [3, 4, 5] ∧
    ∃ d', Fails crashJunk (.replaceHTML 4 b!"x<u></u>") d d' ∧ kids d' 2 = [3, 6, 7] ∧ printHTML d' = .ok b!"<p><a></a>x<u></u></p>" := by
  obtain ⟨d, hd, hp⟩ := someAnd_ex (x := createDom b!"<p><a></a><b></b><i></i></p>") (p := fun d =>
    decide (kids d 2 = [3, 4, 5]) && failAnd (runOpC crashJunk (.replaceHTML 4 b!"x<u></u>") 6 d) (fun x => decide (kids x 2 = [3, 6, 7]) &&
      okAnd (printHTML x) (· == b!"<p><a></a>x<u></u></p>"))) (by decide +kernel)
  rw [Bool.and_eq_true] at hp
  obtain ⟨x, f, p⟩ := failAnd_ex hp.2
  rw [Bool.and_eq_true] at p
  obtain ⟨t, ht, hb⟩ := okAnd_ex p.2
  exact ⟨d, .parsed hd, fun _ => ⟨false, rfl⟩, of_decide_eq_true hp.1, x, ⟨_, f⟩, of_decide_eq_true p.1, by rw [ht, eq_of_beq hb]⟩

/-- A prepended text that is linked when the call fails, while the old child is lost; an appended one that is linked (C130). -/
example : ∃ d, Reachable d ∧ Reads crashJunk ∧ Allowed crashJunk d (.prependText 2 b!"x") ∧ Allowed crashJunk d (.appendText 2 b!"x") ∧ kids d 2 = [3] ∧
    (∃ d', Fails crashJunk (.prependText 2 b!"x") d d' ∧ kids d' 2 = [4]) ∧ ∃ d', Fails crashJunk (.appendText 2 b!"x") d d' ∧ kids d' 2 = [3, 4] := by
  obtain ⟨d, hd, hp⟩ := someAnd_ex (x := createDom b!"<p><b></b></p>") (p := fun d =>
    decide (2 < d.nodes.length ∧ kids d 2 = [3]) && failAnd (runOpC crashJunk (.prependText 2 b!"x") 2 d) (fun x => decide (kids x 2 = [4])) &&
      failAnd (runOpC crashJunk (.appendText 2 b!"x") 3 d) (fun x => decide (kids x 2 = [3, 4]))) (by decide +kernel)
  rw [Bool.and_eq_true, Bool.and_eq_true] at hp
  obtain ⟨x, f, p⟩ := failAnd_ex hp.1.2
  obtain ⟨y, g, q⟩ := failAnd_ex hp.2
  have hh := of_decide_eq_true hp.1.1
  exact ⟨d, .parsed hd, fun _ => ⟨false, rfl⟩, ⟨by decide, hh.1⟩, ⟨by decide, hh.1⟩, hh.2, ⟨x, ⟨_, f⟩, of_decide_eq_true p⟩, y, ⟨_, g⟩, of_decide_eq_true q⟩

/-- A text that cannot be set (C130): the old children are gone, and the new text is not there. -/
example : ∃ d, Reachable d ∧ Allowed crashJunk d (.setText 2 b!"x") ∧ kids d 2 = [3] ∧ ∃ d', Fails crashJunk (.setText 2 b!"x") d d' ∧ kids d' 2 = [] := by
  obtain ⟨d, hd, hp⟩ := someAnd_ex (x := createDom b!"<p><b></b></p>") (p := fun d =>
    decide (2 < d.nodes.length ∧ kids d 2 = [3]) && failAnd (runOpC crashJunk (.setText 2 b!"x") 0 d) (fun x => decide (kids x 2 = []))) (by decide +kernel)
  rw [Bool.and_eq_true] at hp
  obtain ⟨x, f, p⟩ := failAnd_ex hp.2
  have hh := of_decide_eq_true hp.1
  exact ⟨d, .parsed hd, ⟨by decide, hh.1⟩, hh.2, x, ⟨_, f⟩, of_decide_eq_true p⟩

end Flo
