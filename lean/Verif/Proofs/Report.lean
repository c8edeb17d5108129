import Verif.Proofs.Status
import Verif.Spec.Report
/-!
# The report on a difference
-/
namespace Flo
open Spec

theorem setStatus_cases (xs ys : List Str) :
    (SameNames xs ys ∧ setStatus xs ys = .success) ∨
    (¬SameNames xs ys ∧ usedSlots xs ≠ usedSlots ys ∧ setStatus xs ys = .differentSizes) ∨
    (¬SameNames xs ys ∧ usedSlots xs = usedSlots ys ∧ setStatus xs ys = .differentContent) := by
  by_cases hc : usedSlots xs = usedSlots ys
  · by_cases hs : setStatus xs ys = .success
    · exact Or.inl ⟨⟨hc, setStatus_success hs⟩, hs⟩
    · refine Or.inr (Or.inr ⟨?_, hc, ?_⟩)
      · rintro ⟨_, h⟩
        apply hs
        unfold setStatus
        rw [if_neg (not_not.mpr hc), if_pos (fun s _ _ => h s)]
      · unfold setStatus at hs ⊢
        rw [if_neg (not_not.mpr hc)] at hs ⊢
        split at hs
        · exact absurd rfl hs
        · rename_i h; rw [if_neg h]
  · refine Or.inr (Or.inl ⟨fun h => hc h.1, hc, ?_⟩)
    unfold setStatus
    rw [if_pos hc]

theorem setStatus_iff (xs ys : List Str) : setStatus xs ys = .success ↔ SameNames xs ys := by
  rcases setStatus_cases xs ys with ⟨h, e⟩ | ⟨h, _, e⟩ | ⟨h, _, e⟩
  · exact ⟨fun _ => h, fun _ => e⟩
  · exact ⟨fun h' => (by rw [e] at h'; cases h'), fun h' => absurd h' h⟩
  · exact ⟨fun h' => (by rw [e] at h'; cases h'), fun h' => absurd h' h⟩

theorem hashStatus_ne {xs ys : List Str} (h : setStatus xs ys ≠ .success) :
    hashStatusText (setStatus xs ys) ++ b!"\n" =
      if usedSlots xs = usedSlots ys then b!"Collections have different content\n" else b!"Collections have different sizes\n" := by
  rcases setStatus_cases xs ys with ⟨_, e⟩ | ⟨_, hu, e⟩ | ⟨_, hu, e⟩
  · exact absurd e h
  · rw [e, if_neg hu]; rfl
  · rw [e, if_pos hu]; rfl

/-- `f` carries out operations that output `s` and then flushes. -/
def Reports (f : WBuf → Out WBuf) (s : Str) : Prop := ∃ g, Prints g s ∧ ∀ b, f b = (g b >>= fun b => flushIgnore b)

theorem Reports.flushed {f : WBuf → Out WBuf} {s : Str} (h : Reports f s) (b : WBuf) (hcap : 0 < b.cap)
    (hlen : b.data.length ≤ b.cap) (hw : NoErrors b.sched) : ∃ b', f b = .ok b' ∧ b'.data = [] ∧ b'.sink = b.sink ++ b.data ++ s := by
  obtain ⟨g, hg, e⟩ := h
  obtain ⟨b', h1, h2⟩ := hg.flushed b hcap hlen hw
  exact ⟨b', by rw [e, h1], h2⟩

theorem Reports.mk {g : WBuf → Out WBuf} {s : Str} (h : Prints g s) : Reports (fun b => g b >>= fun b => flushIgnore b) s := ⟨g, h, fun _ => rfl⟩

theorem Reports.text {f : WBuf → Out WBuf} {s t : Str} (h : Reports f s) (e : t = s) : Reports f t := by rw [e]; exact h

theorem Reports.congr {f g : WBuf → Out WBuf} {s : Str} (h : Reports f s) (e : ∀ b, g b = f b) : Reports g s := by
  rw [show g = f from funext e]; exact h

theorem Reports.before {f g : WBuf → Out WBuf} {s t : Str} (hf : Prints f s) (hg : Reports g t) :
    Reports (fun b => f b >>= fun b => g b) (s ++ t) := by
  obtain ⟨k, hk, e⟩ := hg
  refine ⟨_, hf.bind hk, fun b => ?_⟩
  rw [show g = fun b => k b >>= fun b => flushIgnore b from funext e]
  exact (bind_assoc _ _ _).symm

theorem Reports.last (s : Str) : Reports (fun b => appendToBuffer s ⟨false, true⟩ b) s := by
  refine (Reports.mk (Prints.log s)).congr (fun b => ?_)
  unfold logStr appendToBuffer applyFlags
  simp

theorem logLines_prints : ∀ ls : List Str, Prints (fun b => logLines ls b) (linesText ls) := by
  intro ls
  induction ls with
  | nil => exact Prints.nil
  | cons l ls ih => exact ((Prints.line l).bind ih).text (by simp [linesText])

theorem printTwo_reports (p s q t : Str) : Reports (fun b => printTwo p s q t b) (p ++ s ++ q ++ t ++ b!"\n") := by
  refine ((Reports.mk ((Prints.log p).bind ((Prints.log s).bind ((Prints.log q).bind (Prints.line t))))).congr ?_).text ?_
  · intro b
    unfold printTwo
    simp only [bind_assoc]
  · simp only [List.append_assoc]

theorem printSingle_reports (r1 r2 : Str × Bool) : Reports (fun b => printSingle r1 r2 b)
    (b!"Uncomparable nodes: single node and paired node.\nFound single node in node " ++ (if !r2.2 then b!"2" else b!"1") ++
      b!".\nnode 1 tag: " ++ r1.1 ++ b!"\nnode 2 tag: " ++ r2.1 ++ b!"\n") := by
  refine (Reports.before (Prints.log _) (Reports.before (Prints.log _) (printTwo_reports _ _ _ _))).text ?_
  simp only [List.append_assoc]

theorem printSets_reports {d1 d2 : Dom} {x y : Node} {t1 t2 : Nat} {r1 r2 : Str × Bool} {s1 s2 : StrSet} (st : CStatus) (caption : Str)
    (h1 : x.docTag = .ok t1) (h2 : y.docTag = .ok t2) (g1 : regAt d1.tagReg t1 = .ok r1) (g2 : regAt d2.tagReg t2 = .ok r2) :
    Reports (fun b => printSets st caption x s1 d1 y s2 d2 b)
      (hashStatusText st ++ b!"\n" ++ caption ++ b!"Printing certain attributes of node 1 with tag " ++ r1.1 ++ b!"\n" ++
       linesText (s1.toList []) ++ b!"Printing certain attributes of node 2 with tag " ++ r2.1 ++ b!"\n" ++ linesText (s2.toList [])) := by
  have k := (Prints.line (hashStatusText st)).bind ((Prints.log caption).bind Prints.flush)
  have m := (Prints.log b!"Printing certain attributes of node 1 with tag ").bind ((Prints.line r1.1).bind
    ((logLines_prints (s1.toList [])).bind ((Prints.log b!"Printing certain attributes of node 2 with tag ").bind
    ((Prints.line r2.1).bind (logLines_prints (s2.toList []))))))
  refine ((Reports.before k (Reports.mk m)).congr ?_).text ?_
  · intro b
    unfold printSets printAttributes
    simp only [h1, h2, g1, g2, Out.bind_ok, bind_assoc]
  · simp only [List.append_assoc, List.append_nil, List.nil_append]

theorem StrOK.lists {ss : List Str} {m : StrSet} (h : StrOK ss m) : Lists (m.toList []) ss := ⟨h.msi.nodup, h.mem⟩

section
variable {d1 d2 : Dom} {a b : Nat} {x y : Node}

/-- What `printFirstDifference` does at a stage: it goes on without a message, or reports a difference. -/
def Stage (f : WBuf → Out (CStatus × WBuf)) (ok : Prop) (D : Str → Prop) : Prop :=
  (ok ∧ ∀ w, f w = .ok (.success, w)) ∨
  ∃ st s g, D s ∧ st ≠ .success ∧ Reports g s ∧ ∀ w, f w = (g w >>= fun w => .ok (st, w))

theorem compareTagsP_stage (hx : d1.nodes[a]? = some x) (hy : d2.nodes[b]? = some y)
    (gx : NodeGood d1.tagReg x) (gy : NodeGood d2.tagReg y) :
    Stage (fun w => compareTagsP x d1 y d2 w)
      (tagStatus d1 a d2 b = .success ∧ typeOf d1 a ≠ some .removed ∧ typeOf d1 a ≠ some .error) (DiffReport d1 d2 a b) := by
  have tx := typeOf_eq hx
  have ty := typeOf_eq hy
  unfold compareTagsP
  by_cases h : x.type = y.type
  · simp only [h, ne_eq, not_true, if_false]
    obtain ⟨xt, xp⟩ := x
    obtain ⟨yt, yp⟩ := y
    dsimp only at h tx ty
    subst h
    have hts : tagStatus d1 a d2 b = (if typeOf d1 a = some .text then (if textOf d1 a = textOf d2 b then .success else .differentContent)
        else if typeOf d1 a = some .document then
          (if pairedOf d1 a ≠ pairedOf d2 b then .differentNodeType
           else if tagOf d1 a ≠ tagOf d2 b then .differentContent else .success)
        else if typeOf d1 a = some .root then .success
        else .differentNodeType) := by
      unfold tagStatus
      rw [if_neg (by rw [tx, ty]; simp)]
    cases xt with
    | text =>
      obtain ⟨s, hs⟩ := gx.text rfl
      obtain ⟨s', hs'⟩ := gy.text rfl
      dsimp only at hs hs'
      subst hs; subst hs'
      have e1 : textOf d1 a = some s := textOf_eq.2 hx
      have e2 : textOf d2 b = some s' := textOf_eq.2 hy
      simp only [Node.getText, Out.bind_ok]
      by_cases e : s = s'
      · left
        refine ⟨⟨?_, by rw [tx]; simp, by rw [tx]; simp⟩, fun w => ?_⟩
        · rw [hts, if_pos tx, if_pos (by rw [e1, e2, e])]
        · simp [e, strEq]
      · right
        refine ⟨.differentContent, _, fun w => printTwo _ s _ s' w, .texts e1 e2 e, by decide, printTwo_reports _ _ _ _, fun w => ?_⟩
        simp [e, strEq]
    | document =>
      obtain ⟨t, hs, _, ht⟩ := gx.doc rfl
      obtain ⟨t', hs', _, ht'⟩ := gy.doc rfl
      dsimp only at hs hs'
      subst hs; subst hs'
      have e1 : tagOf d1 a = some (d1.tagReg[t]).1 := by simp [tagOf, hx, List.getElem?_eq_getElem ht]
      have e2 : tagOf d2 b = some (d2.tagReg[t']).1 := by simp [tagOf, hy, List.getElem?_eq_getElem ht']
      have p1 : pairedOf d1 a = some (d1.tagReg[t]).2 := by simp [pairedOf, hx, List.getElem?_eq_getElem ht]
      have p2 : pairedOf d2 b = some (d2.tagReg[t']).2 := by simp [pairedOf, hy, List.getElem?_eq_getElem ht']
      generalize hr1 : d1.tagReg[t] = r1 at *
      generalize hr2 : d2.tagReg[t'] = r2 at *
      have q1 : regAt d1.tagReg t = .ok r1 := regAt_eq (by rw [List.getElem?_eq_getElem ht, hr1])
      have q2 : regAt d2.tagReg t' = .ok r2 := regAt_eq (by rw [List.getElem?_eq_getElem ht', hr2])
      simp only [Node.docTag, Out.bind_ok, q1, q2]
      by_cases e : r1.2 = r2.2
      · by_cases e' : r1.1 = r2.1
        · left
          refine ⟨⟨?_, by rw [tx]; simp, by rw [tx]; simp⟩, fun w => ?_⟩
          · rw [hts, if_neg (by rw [tx]; simp), if_pos tx, if_neg (by rw [p1, p2, e]; simp), if_neg (by rw [e1, e2, e']; simp)]
          · simp [e, e', strEq]
        · right
          refine ⟨.differentContent, _, fun w => printTwo _ r1.1 _ r1.1 w, .tags e1 e2 (by rw [p1, p2, e]) e', by decide,
            printTwo_reports _ _ _ _, fun w => ?_⟩
          simp [e, e', strEq]
      · right
        refine ⟨.differentNodeType, _, fun w => printSingle r1 r2 w, .single (p := r1.2) e1 e2 p1 ?_, by decide,
          (printSingle_reports r1 r2).text ?_, fun w => ?_⟩
        · rw [p2]
          congr 1
          revert e
          cases r1.2 <;> cases r2.2 <;> simp
        · revert e
          cases r1.2 <;> cases r2.2 <;> simp
        · simp [e]
    | root =>
      left
      refine ⟨⟨?_, by rw [tx]; simp, by rw [tx]; simp⟩, fun w => rfl⟩
      rw [hts, if_neg (by rw [tx]; simp), if_neg (by rw [tx]; simp), if_pos tx]
    | removed =>
      right
      refine ⟨.differentNodeType, _, _, .unknown (t := .removed) tx ty (by simp), by decide,
        (Reports.mk ((Prints.log b!"Comparison not implemented for this node type. Node type: ").bind
          (Prints.line (nodeTypeText .removed)))).text rfl, fun w => ?_⟩
      simp only [bind_assoc]
    | error =>
      right
      refine ⟨.differentNodeType, _, _, .unknown (t := .error) tx ty (by simp), by decide,
        (Reports.mk ((Prints.log b!"Comparison not implemented for this node type. Node type: ").bind
          (Prints.line (nodeTypeText .error)))).text rfl, fun w => ?_⟩
      simp only [bind_assoc]
  · right
    refine ⟨.differentNodeType, _, fun w => printTwo b!"Uncomparable nodes:\nnode 1 type: " (nodeTypeText x.type) b!"\nnode 2 type: " (nodeTypeText y.type) w, .types tx ty h, by decide,
      (printTwo_reports _ _ _ _).text ?_, fun w => ?_⟩
    · rw [nodeTypeText_eq, nodeTypeText_eq]
    · simp only [h, ne_eq, not_false_eq_true, if_true]

/-- Two fillings of the sets, the comparison, and the report. -/
theorem bools_stage (h1 : NamesOK d1) (h2 : NamesOK d2) {s : Str} {t1 t2 : Nat} {p1 p2 : Bool}
    (g1 : x.docTag = .ok t1) (g2 : y.docTag = .ok t2) (q1 : regAt d1.tagReg t1 = .ok (s, p1)) (q2 : regAt d2.tagReg t2 = .ok (s, p2))
    (e1 : tagOf d1 a = some s) (e2 : tagOf d2 b = some s) (hp : pairedOf d1 a = pairedOf d2 b) :
    Stage (fun w => compareBoolPropsP a x d1 b y d2 w) (SameNames (bools d1 a) (bools d2 b)) (DiffReport d1 d2 a b) ∨
    ((∀ w, compareBoolPropsP a x d1 b y d2 w = .longjmp) ∧ compareBoolProps a d1 b d2 = .longjmp ∧ (TooMany d1 a ∨ TooMany d2 b)) := by
  unfold compareBoolPropsP
  simp only [fillBoolLoop_eq a d1 d1.boolProps _ h1.boolsLt, fillBoolLoop_eq b d2 d2.boolProps _ h2.boolsLt]
  rcases str_runInserts (bools d1 a) [] _ StrOK.fresh with ⟨ho, e⟩ | ⟨ho, m1, e, hm1⟩
  · right
    refine ⟨?_, by rw [compareBoolProps_eq h1 h2]; unfold boolsOut; exact if_pos (Or.inl ho), Or.inl (Or.inl (Over.length ho))⟩
    unfold bools at e
    rw [e]
    exact fun _ => rfl
  · unfold bools at e
    rw [e]
    rcases str_runInserts (bools d2 b) [] _ StrOK.fresh with ⟨ho', f⟩ | ⟨ho', m2, f, hm2⟩
    · right
      refine ⟨?_, by rw [compareBoolProps_eq h1 h2]; unfold boolsOut; exact if_pos (Or.inr ho'), Or.inr (Or.inl (Over.length ho'))⟩
      unfold bools at f
      rw [f]
      exact fun _ => rfl
    · left
      unfold bools at f
      rw [f]
      simp only [Out.bind_ok, List.nil_append] at hm1 hm2 ⊢
      rw [equalsStringSet_eq hm1 hm2 (not_over_used ho) (not_over_used ho')]
      simp only [Out.bind_ok]
      by_cases hs : setStatus (bools d1 a) (bools d2 b) = .success
      · left
        refine ⟨(setStatus_iff _ _).1 hs, fun w => ?_⟩
        simp only [hs, ne_eq, not_true, if_false]
      · right
        refine ⟨_, _, _, .bools e1 e2 hp (fun h => hs ((setStatus_iff _ _).2 h)) hm1.lists hm2.lists, hs,
          (printSets_reports (s1 := m1) (s2 := m2) (setStatus (bools d1 a) (bools d2 b)) b!"Nodes contain different bool props\n" g1 g2 q1 q2).text ?_, fun w => ?_⟩
        · rw [hashStatus_ne hs, namesReport]
        · simp only [hs, ne_eq, not_false_eq_true, if_true]

theorem props_stage (h1 : NamesOK d1) (h2 : NamesOK d2) {s : Str} {t1 t2 : Nat} {p1 p2 : Bool}
    (g1 : x.docTag = .ok t1) (g2 : y.docTag = .ok t2) (q1 : regAt d1.tagReg t1 = .ok (s, p1)) (q2 : regAt d2.tagReg t2 = .ok (s, p2))
    (e1 : tagOf d1 a = some s) (e2 : tagOf d2 b = some s) (hp : pairedOf d1 a = pairedOf d2 b)
    (hb : SameNames (bools d1 a) (bools d2 b)) :
    Stage (fun w => comparePropsP a x d1 b y d2 w) (SameNames ((pairs d1 a).map (·.1)) ((pairs d2 b).map (·.1)) ∧
      SameNames ((pairs d1 a).map (·.2)) ((pairs d2 b).map (·.2))) (DiffReport d1 d2 a b) ∨
    ((∀ w, comparePropsP a x d1 b y d2 w = .longjmp) ∧ compareProps a d1 b d2 = .longjmp ∧ (TooMany d1 a ∨ TooMany d2 b)) := by
  unfold comparePropsP
  rcases fillProps_pairs h1 a with ⟨ho, e⟩ | ⟨ho, k1, v1, e, hk1, hv1⟩
  · right
    rw [e]
    refine ⟨fun _ => rfl, by rw [compareProps_eq h1 h2]; unfold pairsOut; exact if_pos (Or.inl ho), Or.inl (Or.inr ?_)⟩
    rcases ho with ho | ho
    · simpa using Over.length ho
    · simpa using Over.length ho
  · rw [e]
    rcases fillProps_pairs h2 b with ⟨ho', f⟩ | ⟨ho', k2, v2, f, hk2, hv2⟩
    · right
      rw [f]
      refine ⟨fun _ => rfl, by rw [compareProps_eq h1 h2]; unfold pairsOut; exact if_pos (Or.inr ho'), Or.inr (Or.inr ?_)⟩
      rcases ho' with ho | ho
      · simpa using Over.length ho
      · simpa using Over.length ho
    · left
      rw [f]
      have hu1 := not_or.mp ho
      have hu2 := not_or.mp ho'
      simp only [Out.bind_ok]
      rw [equalsStringSet_eq hk1 hk2 (not_over_used hu1.1) (not_over_used hu2.1),
        equalsStringSet_eq hv1 hv2 (not_over_used hu1.2) (not_over_used hu2.2)]
      simp only [Out.bind_ok]
      by_cases hs : setStatus ((pairs d1 a).map (·.1)) ((pairs d2 b).map (·.1)) = .success
      · have hk := (setStatus_iff _ _).1 hs
        by_cases hs' : setStatus ((pairs d1 a).map (·.2)) ((pairs d2 b).map (·.2)) = .success
        · left
          refine ⟨⟨hk, (setStatus_iff _ _).1 hs'⟩, fun w => ?_⟩
          simp only [hs, hs', ne_eq, not_true, if_false]
        · right
          refine ⟨_, _, _, .values e1 e2 hp hb hk (fun h => hs' ((setStatus_iff _ _).2 h)) hv1.lists hv2.lists, hs',
            (printSets_reports (s1 := v1) (s2 := v2) (setStatus ((pairs d1 a).map (·.2)) ((pairs d2 b).map (·.2))) b!"Nodes contain different value props\n" g1 g2 q1 q2).text ?_, fun w => ?_⟩
          · rw [hashStatus_ne hs', namesReport]
          · simp only [hs, hs', ne_eq, not_true, not_false_eq_true, if_true, if_false]
      · right
        refine ⟨_, _, _, .keys e1 e2 hp hb (fun h => hs ((setStatus_iff _ _).2 h)) hk1.lists hk2.lists, hs,
          (printSets_reports (s1 := k1) (s2 := k2) (setStatus ((pairs d1 a).map (·.1)) ((pairs d2 b).map (·.1))) b!"Nodes contain different key props\n" g1 g2 q1 q2).text ?_, fun w => ?_⟩
        · rw [hashStatus_ne hs, namesReport]
        · simp only [hs, ne_eq, not_false_eq_true, if_true]

theorem tagStatus_document (hx : d1.nodes[a]? = some x) (hy : d2.nodes[b]? = some y)
    (gx : NodeGood d1.tagReg x) (gy : NodeGood d2.tagReg y) (h : tagStatus d1 a d2 b = .success) (hd : x.type = .document) :
    ∃ s p t1 t2, x.docTag = .ok t1 ∧ y.docTag = .ok t2 ∧ regAt d1.tagReg t1 = .ok (s, p) ∧ regAt d2.tagReg t2 = .ok (s, p) ∧
      tagOf d1 a = some s ∧ tagOf d2 b = some s := by
  obtain ⟨e1, e2, e3, e4⟩ := tagStatus_success h
  have hd2 : y.type = .document := by
    have := typeOf_eq hy
    rw [← e1, typeOf_eq hx, hd] at this
    exact (Option.some.inj this).symm
  obtain ⟨t, hs, _, ht⟩ := gx.doc hd
  obtain ⟨t', hs', _, ht'⟩ := gy.doc hd2
  obtain ⟨xt, xp⟩ := x
  obtain ⟨yt, yp⟩ := y
  dsimp only at hd hd2 hs hs'
  subst hd hd2 hs hs'
  have q1 : tagOf d1 a = some (d1.tagReg[t]).1 := by simp [tagOf, hx, List.getElem?_eq_getElem ht]
  have q2 : tagOf d2 b = some (d2.tagReg[t']).1 := by simp [tagOf, hy, List.getElem?_eq_getElem ht']
  have p1 : pairedOf d1 a = some (d1.tagReg[t]).2 := by simp [pairedOf, hx, List.getElem?_eq_getElem ht]
  have p2 : pairedOf d2 b = some (d2.tagReg[t']).2 := by simp [pairedOf, hy, List.getElem?_eq_getElem ht']
  have c1 := Option.some.inj (q1.symm.trans (e3.trans q2))
  have c2 := Option.some.inj (p1.symm.trans (e4.trans p2))
  have c : d1.tagReg[t] = d2.tagReg[t'] := Prod.ext c1 c2
  refine ⟨(d1.tagReg[t]).1, (d1.tagReg[t]).2, t, t', rfl, rfl, regAt_eq (List.getElem?_eq_getElem ht), ?_, q1, by rw [q2, c1]⟩
  rw [regAt_eq (List.getElem?_eq_getElem ht'), c]

/-- The report on two nodes. -/
theorem printFirstDifference_reports {c1 c2 : Nat → List Nat} (h1 : DomI d1 c1) (h2 : DomI d2 c2)
    (ha : a < d1.nodes.length) (hb : b < d2.nodes.length) :
    (∃ s, DiffReport d1 d2 a b s ∧ Reports (fun w => printFirstDifference a d1 b d2 w) s) ∨
    ((∀ w, printFirstDifference a d1 b d2 w = .longjmp) ∧ labelSpec d1 a d2 b = .longjmp ∧ (TooMany d1 a ∨ TooMany d2 b)) := by
  have hx := List.getElem?_eq_getElem ha
  have hy := List.getElem?_eq_getElem hb
  have gx := h1.good _ _ hx
  have gy := h2.good _ _ hy
  have n1 : d1.node a = .ok d1.nodes[a] := by unfold Dom.node; rw [hx]
  have n2 : d2.node b = .ok d2.nodes[b] := by unfold Dom.node; rw [hy]
  have tx := typeOf_eq hx
  unfold printFirstDifference
  simp only [n1, n2, Out.bind_ok]
  rcases compareTagsP_stage hx hy gx gy with ⟨⟨ht, hr, he⟩, e⟩ | ⟨st, s, g, hD, hst, hg, e⟩
  · simp only [e, Out.bind_ok, ne_eq, not_true, if_false]
    obtain ⟨l1, l2, l3, l4⟩ := tagStatus_success ht
    unfold printAttrDifference
    by_cases hd : d1.nodes[a].type = .document
    · simp only [hd, if_true]
      obtain ⟨s, p, t1, t2, g1, g2, q1, q2, e1, e2⟩ := tagStatus_document hx hy gx gy ht hd
      rcases bools_stage h1.names h2.names g1 g2 q1 q2 e1 e2 l4 with (⟨hbo, e⟩ | ⟨st, s, g, hD, hst, hg, e⟩) | ⟨e, hj, ho⟩
      · simp only [e, Out.bind_ok, ne_eq, not_true, if_false]
        rcases props_stage h1.names h2.names g1 g2 q1 q2 e1 e2 l4 hbo with (⟨hpo, e⟩ | ⟨st, s, g, hD, hst, hg, e⟩) | ⟨e, hj, ho⟩
        · simp only [e, Out.bind_ok, ne_eq, not_true, if_false]
          left
          exact ⟨_, .none hr he ⟨l1, l2, l3, l4, fun _ => hbo, fun _ => hpo.1, fun _ => hpo.2⟩, Reports.last _⟩
        · left
          refine ⟨s, hD, hg.congr (fun w => ?_)⟩
          simp only [e, bind_assoc, Out.bind_ok, ne_eq, hst, not_false_eq_true, if_true]
          cases g w <;> rfl
        · right
          simp only [e]
          refine ⟨fun _ => rfl, ?_, ho⟩
          unfold labelSpec
          rw [if_neg (not_not.mpr ht), if_pos (by rw [tx, hd]), ← compareBoolProps_eq h1.names h2.names, ← compareProps_eq h1.names h2.names]
          rcases boolsOut_cases (bools d1 a) (bools d2 b) with ⟨_, e'⟩ | ⟨_, e'⟩
          · rw [compareBoolProps_eq h1.names h2.names, e']; rfl
          · rw [compareBoolProps_eq h1.names h2.names, e', Out.bind_ok, (setStatus_iff _ _).2 hbo, hj]; rfl
      · left
        refine ⟨s, hD, hg.congr (fun w => ?_)⟩
        simp only [e, bind_assoc, Out.bind_ok, ne_eq, hst, not_false_eq_true, if_true]
        cases g w <;> rfl
      · right
        simp only [e]
        refine ⟨fun _ => rfl, ?_, ho⟩
        unfold labelSpec
        rw [if_neg (not_not.mpr ht), if_pos (by rw [tx, hd]), ← compareBoolProps_eq h1.names h2.names, hj]
        rfl
    · simp only [hd, if_false, Out.bind_ok, ne_eq, not_true]
      left
      have hnd : typeOf d1 a ≠ some .document := by rw [tx]; simpa using hd
      exact ⟨_, .none hr he ⟨l1, l2, l3, l4, fun h => absurd h hnd, fun h => absurd h hnd, fun h => absurd h hnd⟩, Reports.last _⟩
  · left
    refine ⟨s, hD, hg.congr (fun w => ?_)⟩
    simp only [e, bind_assoc, Out.bind_ok, ne_eq, hst, not_false_eq_true, if_true]
    cases g w <;> rfl

/-! ## Where the comparison stops -/

theorem setStatus_names {xs ys : List Str} (h : setStatus xs ys ≠ .success) :
    ¬SameNames xs ys ∧ setStatus xs ys = namesStatus xs ys := by
  unfold namesStatus
  rcases setStatus_cases xs ys with ⟨_, e⟩ | ⟨hn, hu, e⟩ | ⟨hn, hu, e⟩
  · exact absurd e h
  · rw [if_neg hu]; exact ⟨hn, e⟩
  · rw [if_pos hu]; exact ⟨hn, e⟩

theorem tagStatus_fails {a b : Nat} (hk : Known d1 a) (h : tagStatus d1 a d2 b ≠ .success) :
    ¬SameLabel d1 d2 a b ∧ Verdict d1 d2 a b (tagStatus d1 a d2 b) := by
  unfold tagStatus at h ⊢
  by_cases ht : typeOf d1 a = typeOf d2 b
  · rw [if_neg (not_not.mpr ht)] at h ⊢
    by_cases h1 : typeOf d1 a = some .text
    · rw [if_pos h1] at h ⊢
      by_cases e : textOf d1 a = textOf d2 b
      · rw [if_pos e] at h; exact absurd rfl h
      · rw [if_neg e]
        have np : ∀ (d : Dom) (n : Nat), typeOf d n = some .text → pairedOf d n = none := by
          intro d n hn
          unfold pairedOf
          split
          · rename_i hc; rw [typeOf_eq hc] at hn; cases hn
          · rfl
        exact ⟨fun hs => e hs.text, .text ht (by rw [np _ _ h1, np _ _ (ht ▸ h1)]) (Or.inl e)⟩
    · rw [if_neg h1] at h ⊢
      by_cases h2 : typeOf d1 a = some .document
      · rw [if_pos h2] at h ⊢
        by_cases e2 : pairedOf d1 a = pairedOf d2 b
        · rw [if_neg (not_not.mpr e2)] at h ⊢
          by_cases e3 : tagOf d1 a = tagOf d2 b
          · rw [if_neg (not_not.mpr e3)] at h; exact absurd rfl h
          · rw [if_pos e3]
            exact ⟨fun hs => e3 hs.tag, .text ht e2 (Or.inr e3)⟩
        · rw [if_pos e2]
          exact ⟨fun hs => e2 hs.paired, .kind (Or.inr e2)⟩
      · rw [if_neg h2] at h
        rcases hk with hk | hk | hk
        · exact absurd hk h1
        · exact absurd hk h2
        · rw [if_pos hk] at h; exact absurd rfl h
  · rw [if_pos ht]
    exact ⟨fun hs => ht hs.type, .kind (Or.inl ht)⟩

theorem tagOf_some {c1 : Nat → List Nat} (h1 : DomI d1 c1) {a : Nat} (h : typeOf d1 a = some .document) : ∃ s, tagOf d1 a = some s := by
  obtain ⟨nd, e, ht⟩ := typeOf_some h
  obtain ⟨t, hp, _, hlt⟩ := (h1.good _ _ e).doc ht
  obtain ⟨ty, pl⟩ := nd
  dsimp only at ht hp
  subst ht hp
  exact ⟨(d1.tagReg[t]).1, by simp [tagOf, e, List.getElem?_eq_getElem hlt]⟩

/-- What a comparison of two nodes that ends with a status says. -/
theorem labelSpec_cases {c1 : Nat → List Nat} (h1 : DomI d1 c1) {a b : Nat} (hk : Known d1 a) {st : CStatus}
    (h : labelSpec d1 a d2 b = .ok st) :
    (st = .success ∧ SameLabel d1 d2 a b) ∨ (st ≠ .success ∧ ¬SameLabel d1 d2 a b ∧ Verdict d1 d2 a b st) := by
  unfold labelSpec at h
  by_cases ht : tagStatus d1 a d2 b = .success
  · rw [if_neg (not_not.mpr ht)] at h
    obtain ⟨e1, e2, e3, e4⟩ := tagStatus_success ht
    by_cases hd : typeOf d1 a = some .document
    · obtain ⟨s, hs1⟩ := tagOf_some h1 hd
      have hs2 : tagOf d2 b = some s := by rw [← e3]; exact hs1
      rw [if_pos hd] at h
      rcases boolsOut_cases (bools d1 a) (bools d2 b) with ⟨ho, e⟩ | ⟨_, e⟩
      · rw [e] at h; cases h
      · rw [e, Out.bind_ok] at h
        by_cases hb : setStatus (bools d1 a) (bools d2 b) = .success
        · rw [if_neg (not_not.mpr hb)] at h
          have hb := (setStatus_iff _ _).1 hb
          rcases pairsOut_cases (pairs d1 a) (pairs d2 b) with ⟨ho, e⟩ | e
          · rw [e] at h; cases h
          · rw [e] at h
            have h := Out.ok.inj h
            by_cases hk : setStatus ((pairs d1 a).map (·.1)) ((pairs d2 b).map (·.1)) = .success
            · rw [if_neg (not_not.mpr hk)] at h
              have hk := (setStatus_iff _ _).1 hk
              by_cases hv : setStatus ((pairs d1 a).map (·.2)) ((pairs d2 b).map (·.2)) = .success
              · left
                exact ⟨h ▸ hv, e1, e2, e3, e4, fun _ => hb, fun _ => hk, fun _ => (setStatus_iff _ _).1 hv⟩
              · right
                obtain ⟨n1, n2⟩ := setStatus_names hv
                subst h
                exact ⟨hv, fun hs => n1 (hs.values hd), by rw [n2]; exact .values hs1 hs2 e4 hb hk n1⟩
            · rw [if_pos hk] at h
              right
              obtain ⟨n1, n2⟩ := setStatus_names hk
              subst h
              exact ⟨hk, fun hs => n1 (hs.keys hd), by rw [n2]; exact .keys hs1 hs2 e4 hb n1⟩
        · rw [if_pos hb] at h
          right
          obtain ⟨n1, n2⟩ := setStatus_names hb
          have h := Out.ok.inj h
          subst h
          exact ⟨hb, fun hs => n1 (hs.bools hd), by rw [n2]; exact .bools hs1 hs2 e4 n1⟩
    · rw [if_neg hd] at h
      left
      exact ⟨(Out.ok.inj h).symm, e1, e2, e3, e4, fun h => absurd h hd, fun h => absurd h hd, fun h => absurd h hd⟩
  · rw [if_pos ht] at h
    have h := Out.ok.inj h
    subst h
    obtain ⟨q1, q2⟩ := tagStatus_fails hk ht
    exact Or.inr ⟨ht, q1, q2⟩

/-- A comparison of two child lists that ends with a status: all pairs are equal, or a first pair differs, or one list is
longer. -/
theorem cmpL_cases {cmp : Nat → Nat → Out CResult} {p1 p2 : Nat} {E : Nat → Nat → Prop} {D : Nat → Nat → CResult → Prop} :
    ∀ {xs ys : List Nat} {r : CResult},
    (∀ x ∈ xs, ∀ y ∈ ys, ∀ r, cmp x y = .ok r → (r.status = .success ∧ E x y) ∨ (r.status ≠ .success ∧ D x y r)) →
    cmpL cmp p1 p2 xs ys = .ok r →
    (xs.length = ys.length ∧ r = ⟨.success, p1, p2⟩ ∧ ∀ (i x y : Nat), xs[i]? = some x → ys[i]? = some y → E x y) ∨
    (xs.length ≠ ys.length ∧ r = ⟨.differentSizes, p1, p2⟩ ∧ ∀ (i x y : Nat), xs[i]? = some x → ys[i]? = some y → E x y) ∨
    (r.status ≠ .success ∧ ∃ i x y, xs[i]? = some x ∧ ys[i]? = some y ∧ D x y r ∧
      ∀ (j x y : Nat), j < i → xs[j]? = some x → ys[j]? = some y → E x y) := by
  intro xs
  induction xs with
  | nil =>
    intro ys r _ h
    cases ys with
    | nil => left; unfold cmpL at h; cases h; exact ⟨rfl, rfl, by intro i x y hx; simp at hx⟩
    | cons y ys => right; left; unfold cmpL at h; cases h; exact ⟨by simp, rfl, by intro i x y hx; simp at hx⟩
  | cons x xs ih =>
    intro ys r hc h
    cases ys with
    | nil => right; left; unfold cmpL at h; cases h; exact ⟨by simp, rfl, by intro i x y _ hy; simp at hy⟩
    | cons y ys =>
      unfold cmpL at h
      cases e : cmp x y with
      | ok r1 =>
        rw [e, Out.bind_ok] at h
        rcases hc x List.mem_cons_self y List.mem_cons_self r1 e with ⟨hs, hE⟩ | ⟨hs, hD⟩
        · rw [if_neg (not_not.mpr hs)] at h
          rcases ih (fun x hx y hy => hc x (List.mem_cons_of_mem _ hx) y (List.mem_cons_of_mem _ hy)) h with
            ⟨q1, q2, q3⟩ | ⟨q1, q2, q3⟩ | ⟨q1, i, u, v, q2, q3, q4, q5⟩
          · refine Or.inl ⟨by simp [q1], q2, fun i => ?_⟩
            cases i with
            | zero => intro u v hu hv; simp at hu hv; subst hu; subst hv; exact hE
            | succ i => intro u v hu hv; exact q3 i u v (by simpa using hu) (by simpa using hv)
          · refine Or.inr (Or.inl ⟨by simpa using q1, q2, fun i => ?_⟩)
            cases i with
            | zero => intro u v hu hv; simp at hu hv; subst hu; subst hv; exact hE
            | succ i => intro u v hu hv; exact q3 i u v (by simpa using hu) (by simpa using hv)
          · refine Or.inr (Or.inr ⟨q1, i + 1, u, v, by simpa using q2, by simpa using q3, q4, fun j => ?_⟩)
            cases j with
            | zero => intro u v _ hu hv; simp at hu hv; subst hu; subst hv; exact hE
            | succ j => intro u v hj hu hv; exact q5 j u v (by omega) (by simpa using hu) (by simpa using hv)
        · rw [if_pos hs] at h
          cases h
          exact Or.inr (Or.inr ⟨hs, 0, x, y, rfl, rfl, hD, by intro j _ _ hj; omega⟩)
      | longjmp => rw [e] at h; cases h
      | ub w => rw [e] at h; cases h
      | hang => rw [e] at h; cases h

theorem cmpT_cases {c1 : Nat → List Nat} (h1 : DomI d1 c1) : ∀ (f a b : Nat) (r : CResult), Live d1 a → Live d2 b →
    cmpT d1 d2 f a b = .ok r →
    (r.status = .success ∧ SameTree (SameLabel d1 d2) d1 d2 a b) ∨
    (r.status ≠ .success ∧ Live d1 r.node1 ∧ Live d2 r.node2 ∧ (∃ st, labelSpec d1 r.node1 d2 r.node2 = .ok st) ∧ FirstDiff (SameLabel d1 d2) d1 d2 a b r.node1 r.node2 ∧
      Verdict d1 d2 r.node1 r.node2 r.status) := by
  intro f
  induction f with
  | zero => intro a b r _ _ h; cases h
  | succ f ih =>
    intro a b r ha hb h
    unfold cmpT at h
    cases hl : labelSpec d1 a d2 b with
    | ok st =>
      rw [hl, Out.bind_ok] at h
      rcases labelSpec_cases h1 (live_known h1 ha) hl with ⟨hs, hE⟩ | ⟨hs, hn, hv⟩
      · rw [if_neg (not_not.mpr hs)] at h
        rcases cmpL_cases (fun x hx y hy r hr => ih x y r (.child ha hx) (.child hb hy) hr) h with
          ⟨q1, q2, q3⟩ | ⟨q1, q2, q3⟩ | ⟨q1, i, u, v, q2, q3, ⟨k1, k2, k0, k3, k4⟩, q5⟩
        · subst q2
          exact Or.inl ⟨rfl, .node hE q1 q3⟩
        · subst q2
          exact Or.inr ⟨(by simp), ha, hb, ⟨st, hl⟩, .size hE q1 q3, .children hE q1⟩
        · exact Or.inr ⟨q1, k1, k2, k0, .inside hE q2 q3 q5 k3, k4⟩
      · rw [if_pos hs] at h
        cases h
        exact Or.inr ⟨hs, ha, hb, ⟨_, hl⟩, .here hn, hv⟩
    | longjmp => rw [hl] at h; cases h
    | ub w => rw [hl] at h; cases h
    | hang => rw [hl] at h; cases h

theorem Spec.FirstDiff.ne {R : Nat → Nat → Prop} {a b u v : Nat} (h : FirstDiff R d1 d2 a b u v) : ¬SameTree R d1 d2 a b := by
  induction h with
  | here h => rintro ⟨hr, _, _⟩; exact h hr
  | size _ h _ => rintro ⟨_, hl, _⟩; exact h hl
  | inside _ h1 h2 _ _ ih => rintro ⟨_, _, hk⟩; exact ih (hk _ _ _ h1 h2)

theorem typeOf_tag {d : Dom} {n : Nat} {s : Str} (h : tagOf d n = some s) : typeOf d n = some .document := by
  unfold tagOf at h
  split at h
  · rename_i hc; rw [typeOf_eq hc]
  · cases h

end
end Flo
