import Verif.Proofs.LexTag
import Verif.Proofs.Capacity
import Verif.Proofs.Fragment
/-!
# Parsing rendered source: the trees, the nesting limit, identifiers
-/
namespace Flo
open Spec

/-! ## The forest of rendered events -/

theorem attrPairs_ev (as : List AttrSrc) : attrPairs (as.map AttrSrc.ev) = as.filterMap AttrSrc.pair := by
  induction as with
  | nil => rfl
  | cons a as ih => cases a <;> simp [attrPairs, AttrSrc.ev, AttrSrc.pair, List.filterMap_cons, ih]

theorem attrBools_ev (as : List AttrSrc) : attrBools (as.map AttrSrc.ev) = as.filterMap AttrSrc.flag := by
  induction as with
  | nil => rfl
  | cons a as ih => cases a <;> simp [attrBools, AttrSrc.ev, AttrSrc.flag, List.filterMap_cons, ih]

/-- Adding finished trees to an open element or to the top level. -/
def addAll (z : Zip) (ts : List Tree) : Zip := ts.foldl (fun z t => addTree z.frames z.bot t) z

theorem addAll_frames (f : Frame) (fs : List Frame) (bot : List Tree) : ∀ (ts : List Tree) (dn : List Tree),
    addAll ⟨{ f with done := dn } :: fs, bot⟩ ts = ⟨{ f with done := dn ++ ts } :: fs, bot⟩ := by
  intro ts
  induction ts with
  | nil => intro dn; simp [addAll]
  | cons t ts ih =>
    intro dn
    have := ih (dn ++ [t])
    simpa [addAll, addTree] using this

theorem addAll_bot : ∀ (ts bot : List Tree), addAll ⟨[], bot⟩ ts = ⟨[], bot ++ ts⟩ := by
  intro ts
  induction ts with
  | nil => intro bot; simp [addAll]
  | cons t ts ih =>
    intro bot
    have := ih (bot ++ [t])
    simpa [addAll, addTree] using this

mutual
theorem Spec.Src.feed : ∀ (t : Src), t.Clean → ∀ (z : Zip), t.evs.foldl Zip.feed z = addTree z.frames z.bot t.tree
  | .text first more, _, z => rfl
  | .single tag as gap slash, h, z => by
    have hc := canS_false h.2.2.2.2
    simp [Src.evs, Zip.feed, hc, Src.tree, attrPairs_ev, attrBools_ev]
  | .paired tag as gap lead ks gap', h, z => by
    have := Srcs.feed ks h.2.2.2.2.2.1 ⟨⟨tag, attrPairs (as.map AttrSrc.ev), attrBools (as.map AttrSrc.ev), []⟩ :: z.frames, z.bot⟩
    simp only [Src.evs, List.foldl_cons, List.foldl_append, List.foldl_nil]
    have e : z.feed (.elem tag true (as.map AttrSrc.ev)) =
      ⟨⟨tag, attrPairs (as.map AttrSrc.ev), attrBools (as.map AttrSrc.ev), []⟩ :: z.frames, z.bot⟩ := rfl
    rw [e, this]
    have := addAll_frames ⟨tag, attrPairs (as.map AttrSrc.ev), attrBools (as.map AttrSrc.ev), []⟩ z.frames z.bot ks.trees []
    rw [this]
    simp [Zip.feed, Src.tree, attrPairs_ev, attrBools_ev]
theorem Spec.Srcs.feed : ∀ (ks : Srcs), ks.Clean → ∀ (z : Zip), ks.evs.foldl Zip.feed z = addAll z ks.trees
  | .nil, _, z => rfl
  | .cons t blank rest, h, z => by
    simp only [Srcs.evs, List.foldl_append]
    rw [Src.feed t h.1, Srcs.feed rest h.2.2.1]
    rfl
end

theorem forest_evs {ks : Srcs} (h : ks.Clean) : forest ks.evs = ks.trees := by
  unfold forest
  rw [Srcs.feed ks h, addAll_bot]
  simp [Zip.out, sealAll]

/-! ## The nesting limit -/

theorem buildElem_post (tag : Str) (can : Bool) (as : List Attr) (d : Dom) :
    Post NoUB (fun _ => True) (buildElem tag can as d) := by
  unfold buildElem
  refine (createNode_post .document d).bind (fun r hr _ => ?_)
  obtain ⟨id, d1⟩ := r
  obtain ⟨e1, e2, e3⟩ := createNode_eq hr
  dsimp only
  refine (buildAttrs_post _ _ _).bind (fun d2 hr2 _ => ?_)
  have hs : d2.nodes = d1.nodes := (buildAttrs_same hr2).nodes
  refine (setTag_post (tag := tag) (can := can) (by rw [hs, e3, e1]; simp)).bindP (fun d3 _ => trivial)

/-- The builder accepts the events without undefined behaviour (it may run out of identifiers). -/
def Accepts (startLen : Nat) (evs : List Ev) (b : BState) : Prop :=
  Post NoUB (fun r => r.ok = true) (runEvs startLen evs b)

theorem Accepts.leafElem {startLen : Nat} {tag : Str} {as : List Attr} {E : List Ev} {b : BState}
    (h : ∀ b', b'.stack = b.stack → Accepts startLen E b') : Accepts startLen (.elem tag false as :: E) b := by
  unfold Accepts runEvs
  refine Post.bindP (P := fun x => ∃ b', x = .inl b' ∧ b'.stack = b.stack) ?_ ?_
  · unfold runEv
    refine (buildElem_post _ _ _ _).bindP (fun r _ => ?_)
    obtain ⟨id, d⟩ := r
    exact ⟨_, rfl, rfl⟩
  · rintro x ⟨b', rfl, e⟩
    exact h b' e

mutual
theorem Spec.Src.accepts : ∀ (t : Src), t.Clean → ∀ {startLen : Nat} {E : List Ev} {b : BState},
    startLen ≤ b.stack.length → b.stack.length + t.depth ≤ 256 →
    (∀ b', b'.stack = b.stack → Accepts startLen E b') → Accepts startLen (t.evs ++ E) b
  | .text first more, _, startLen, E, b, hs, hd, h => by
    unfold Accepts
    simp only [Src.evs, List.cons_append, List.nil_append, runEvs]
    refine Post.bindP (P := fun x => ∃ b', x = .inl b' ∧ b'.stack = b.stack) ?_ ?_
    · unfold runEv
      refine (parseTextElement_post _ _).bindP (fun r _ => ?_)
      obtain ⟨id, d⟩ := r
      exact ⟨_, rfl, rfl⟩
    · rintro x ⟨b', rfl, e⟩
      exact h b' e
  | .single tag as gap slash, hc, startLen, E, b, hs, hd, h => by
    simp only [Src.evs, canS_false hc.2.2.2.2, List.cons_append, List.nil_append]
    exact Accepts.leafElem h
  | .paired tag as gap lead ks gap', hc, startLen, E, b, hs, hd, h => by
    unfold Accepts
    simp only [Src.evs, List.cons_append, runEvs]
    have hd : b.stack.length + (ks.depth + 1) ≤ 256 := hd
    refine Post.bindP (P := fun x => ∃ b' id, x = .inl b' ∧ b'.stack = (id, tag) :: b.stack) ?_ ?_
    · unfold runEv
      refine (buildElem_post _ _ _ _).bindP (fun r _ => ?_)
      obtain ⟨id, d⟩ := r
      dsimp only
      rw [if_pos rfl, if_neg (by show ¬ b.stack.length ≥ 256; omega)]
      exact ⟨_, _, rfl, rfl⟩
    · rintro x ⟨b', id, rfl, e⟩
      dsimp only
      rw [List.append_assoc]
      refine Srcs.accepts ks hc.2.2.2.2.2.1 (startLen := startLen) (b := b') (by rw [e]; simp; omega) (by rw [e]; simp; omega) ?_
      intro b2 e2
      unfold Accepts
      simp only [List.cons_append, List.nil_append, runEvs]
      refine Post.bindP (P := fun x => ∃ b', x = .inl b' ∧ b'.stack = b.stack) ?_ ?_
      · unfold runEv
        have e3 : b2.stack = (id, tag) :: b.stack := by rw [e2, e]
        rw [e3]
        dsimp only
        rw [if_pos (by simp; omega)]
        exact ⟨_, rfl, rfl⟩
      · rintro x ⟨b3, rfl, e3⟩
        exact h b3 e3
theorem Spec.Srcs.accepts : ∀ (ks : Srcs), ks.Clean → ∀ {startLen : Nat} {E : List Ev} {b : BState},
    startLen ≤ b.stack.length → b.stack.length + ks.depth ≤ 256 →
    (∀ b', b'.stack = b.stack → Accepts startLen E b') → Accepts startLen (ks.evs ++ E) b
  | .nil, _, startLen, E, b, hs, hd, h => h b rfl
  | .cons t blank rest, hc, startLen, E, b, hs, hd, h => by
    have hd : b.stack.length + max t.depth rest.depth ≤ 256 := hd
    simp only [Srcs.evs, List.append_assoc]
    refine Src.accepts t hc.1 hs (by omega) ?_
    intro b' e
    refine Srcs.accepts rest hc.2.2.1 (by rw [e]; exact hs) (by rw [e]; omega) ?_
    intro b2 e2
    exact h b2 (by rw [e2, e])
end

/-! ## Summary -/

theorem createDom_src {lead : Str} {ks : Srcs} (hl : Blank lead) (hk : ks.Clean) (hd : ks.depth ≤ 255) :
    createDom (lead ++ ks.render) = .longjmp ∨
    ∃ d, createDom (lead ++ ks.render) = .ok (some d) ∧ RepL d ks.trees (kids d 1) := by
  have hlex := lex_doc (s := lead ++ ks.render) hl hk rfl (rootBase_ok _)
  have hacc : Accepts 1 ks.evs ⟨Dom.init, [(1, [])], 1⟩ := by
    have := Srcs.accepts ks hk (startLen := 1) (E := []) (b := ⟨Dom.init, [(1, [])], 1⟩) (by simp) (by simp; omega)
      (fun b' _ => rfl)
    simpa using this
  unfold Accepts at hacc
  rw [← parseRoot_lex (junk := fun _ => .ub .oobIndex) hlex] at hacc
  cases hp : parseRoot (fun _ => Out.ub .oobIndex) (lead ++ ks.render) Dom.init with
  | longjmp => left; simp [createDom, hp]
  | ub w => rw [hp] at hacc; exact False.elim hacc
  | hang => rw [hp] at hacc; exact False.elim hacc
  | ok r =>
    rw [hp] at hacc
    have hr : r.ok = true := hacc
    right
    have hcd : createDom (lead ++ ks.render) = .ok (some r.dom) := by simp [createDom, hp, hr]
    obtain ⟨evs, h1, h2⟩ := createDom_lex hcd
    rw [hlex] at h1
    cases h1
    rw [forest_evs hk] at h2
    exact ⟨_, hcd, h2⟩

theorem parseExtra_src {lead : Str} {ks : Srcs} (hl : Blank lead) (hk : ks.Clean) (hd : ks.depth ≤ 256)
    (junk : Nat → Out Bool) (d : Dom) :
    parseExtra junk (lead ++ ks.render) d = .longjmp ∨ ∃ d', parseExtra junk (lead ++ ks.render) d = .ok ⟨true, d'⟩ := by
  have hlex := lex_doc (s := lead ++ ks.render) hl hk rfl (fragBase_ok junk _)
  have hacc : Accepts 0 ks.evs ⟨d, [], 0⟩ := by
    have := Srcs.accepts ks hk (startLen := 0) (E := []) (b := ⟨d, [], 0⟩) (by simp) (by simp; omega)
      (fun b' _ => rfl)
    simpa using this
  unfold Accepts at hacc
  rw [← parseExtra_lex hlex] at hacc
  cases hp : parseExtra junk (lead ++ ks.render) d with
  | longjmp => exact Or.inl rfl
  | ub w => rw [hp] at hacc; exact False.elim hacc
  | hang => rw [hp] at hacc; exact False.elim hacc
  | ok r =>
    rw [hp] at hacc
    have hr : r.ok = true := hacc
    obtain ⟨ok, d'⟩ := r
    dsimp only at hr
    subst hr
    exact Or.inr ⟨d', rfl⟩

theorem srcs_ne {ks : Srcs} (h : ks.trees ≠ []) : ks ≠ .nil := by rintro rfl; exact h rfl

/-- Clean source is a fragment for `d`, as long as identifiers last. -/
theorem fragment_src {lead : Str} {ks : Srcs} (hl : Blank lead) (hk : ks.Clean) (hd : ks.depth ≤ 255) (hne : ks.trees ≠ [])
    (hlen : (lead ++ ks.render).length ≤ 65533) {d : Dom} (hr : Room d (lead ++ ks.render).length) :
    Fragment (lead ++ ks.render) d ks.trees := by
  refine ⟨?_, ?_, hne⟩
  · rcases createDom_src hl hk hd with h | h
    · exact absurd h (createDom_nj hlen)
    · exact h
  · rcases parseExtra_src hl hk (by omega) (fun _ => .ub .oobIndex) d with h | h
    · exact absurd h (parse_nj (by simp) (by simp) hr _ _)
    · exact h

/-! ## Input without content -/

theorem createDom_blank {s : Str} (h : Blank s) : createDom s = .ok (some Dom.init) := by
  have hlex := lex_doc (s := s) (ks := .nil) h trivial (by simp [Srcs.render]) (rootBase_ok _)
  simp [createDom, parseRoot_lex (junk := fun _ => .ub .oobIndex) hlex, Srcs.evs, runEvs]

theorem parseExtra_blank {s : Str} (h : Blank s) (junk : Nat → Out Bool) (d : Dom) :
    parseExtra junk s d = .ok ⟨true, d⟩ := by
  have hlex := lex_doc (s := s) (ks := .nil) h trivial (by simp [Srcs.render]) (fragBase_ok junk _)
  simp [parseExtra_lex hlex, Srcs.evs, runEvs]

end Flo
