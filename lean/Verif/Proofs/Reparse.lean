import Verif.Proofs.Print
/-!
# Printing and parsing again
-/
namespace Flo
open Spec

/-! ## The printed form as source -/

def attrsSrc (ps : List (Str × Str)) (bs : List Str) : List AttrSrc :=
  bs.map (fun b => .bool b!" " b) ++ ps.map (fun p => .dquoted b!" " p.1 p.2)

mutual
def toSrc (P : Str → Bool) : Tree → Src
  | .text raw => .text raw []
  | .elem tag ps bs ts =>
    if P tag then .paired tag (attrsSrc ps bs) [] [] (toSrcs P ts) []
    else .single tag (attrsSrc ps bs) [] (decide (tag ≠ b!"!DOCTYPE"))
def toSrcs (P : Str → Bool) : List Tree → Srcs
  | [] => .nil
  | t :: ts => .cons (toSrc P t) [] (toSrcs P ts)
end

theorem attrsSrc_render (ps : List (Str × Str)) (bs : List Str) :
    (attrsSrc ps bs).flatMap AttrSrc.render = boolsText bs ++ pairsText ps := by
  unfold attrsSrc boolsText pairsText
  rw [List.flatMap_append, List.flatMap_map, List.flatMap_map]
  simp [AttrSrc.render]

theorem attrsSrc_pairs (ps : List (Str × Str)) (bs : List Str) :
    (attrsSrc ps bs).filterMap AttrSrc.pair = ps ∧ (attrsSrc ps bs).filterMap AttrSrc.flag = bs := by
  unfold attrsSrc
  rw [List.filterMap_append, List.filterMap_append, List.filterMap_map, List.filterMap_map, List.filterMap_map, List.filterMap_map]
  constructor
  · rw [List.filterMap_eq_nil_iff.mpr (by simp [AttrSrc.pair])]
    simp [Function.comp_def, AttrSrc.pair]
  · rw [show List.filterMap (AttrSrc.flag ∘ fun p => AttrSrc.dquoted b!" " p.1 p.2) ps = [] from
      List.filterMap_eq_nil_iff.mpr (by simp [AttrSrc.flag])]
    simp [Function.comp_def, AttrSrc.flag]

section
variable {P : Str → Bool}

mutual
theorem toSrc_render : ∀ (t : Tree), (toSrc P t).render = t.print P
  | .text raw => by simp [toSrc, Src.render, Tree.print, stretches]
  | .elem tag ps bs ts => by
    unfold toSrc Tree.print
    split
    · simp [Src.render, attrsSrc_render, toSrcs_render ts]
    · simp only [Src.render, attrsSrc_render, closing]
      by_cases h : tag = b!"!DOCTYPE" <;> simp [h]
theorem toSrcs_render : ∀ (ts : List Tree), (toSrcs P ts).render = printAll P ts
  | [] => rfl
  | t :: ts => by simp [toSrcs, Srcs.render, printAll, toSrc_render t, toSrcs_render ts]
end

mutual
theorem toSrc_tree : ∀ (t : Tree), t.Printable P → (toSrc P t).tree = t
  | .text raw, _ => by simp [toSrc, Src.tree, joined]
  | .elem tag ps bs ts, h => by
    obtain ⟨h1, h2, h3, h4, h5, h6⟩ := h
    unfold toSrc
    split
    · simp [Src.tree, attrsSrc_pairs, toSrcs_trees ts h6]
    · rename_i hp
      rw [(h5 (by simpa using hp)).1]
      simp [Src.tree, attrsSrc_pairs]
theorem toSrcs_trees : ∀ (ts : List Tree), PrintableAll P ts → (toSrcs P ts).trees = ts
  | [], _ => rfl
  | t :: ts, h => by simp [toSrcs, Srcs.trees, toSrc_tree t h.1, toSrcs_trees ts h.2.1]
end

mutual
theorem toSrc_depth : ∀ (t : Tree), (toSrc P t).depth = t.nesting P
  | .text raw => rfl
  | .elem tag ps bs ts => by
    unfold toSrc Tree.nesting
    split
    · simp [Src.depth, toSrcs_depth ts]
    · rfl
theorem toSrcs_depth : ∀ (ts : List Tree), (toSrcs P ts).depth = nestingAll P ts
  | [] => rfl
  | t :: ts => by simp [toSrcs, Srcs.depth, nestingAll, toSrc_depth t, toSrcs_depth ts]
end

theorem attrsSrc_clean {ps : List (Str × Str)} {bs : List Str} (h1 : ∀ b ∈ bs, KeyName b)
    (h2 : ∀ p ∈ ps, KeyName p.1 ∧ 34 ∉ p.2) : ∀ a ∈ attrsSrc ps bs, a.Clean := by
  have hsp : Spaces b!" " := by intro c hc; simp at hc; subst hc; exact Or.inl rfl
  intro a ha
  unfold attrsSrc at ha
  rw [List.mem_append, List.mem_map, List.mem_map] at ha
  rcases ha with ⟨b, hb, rfl⟩ | ⟨p, hp, rfl⟩
  · exact ⟨hsp, by simp, h1 b hb⟩
  · exact ⟨hsp, by simp, (h2 p hp).1, (h2 p hp).2⟩

theorem spaces_nil : Spaces [] := by intro c hc; cases hc

mutual
theorem toSrc_clean : ∀ (t : Tree), t.Printable P → (toSrc P t).Clean
  | .text raw, h => ⟨h, by simp⟩
  | .elem tag ps bs ts, h => by
    obtain ⟨h1, h2, h3, h4, h5, h6⟩ := h
    unfold toSrc
    split
    · rename_i hp
      exact ⟨h1, attrsSrc_clean h2 h3, spaces_nil, h4 hp, .nil, toSrcs_clean ts h6, spaces_nil⟩
    · rename_i hp
      have h5 := (h5 (by simpa using hp)).2
      refine ⟨h1, attrsSrc_clean h2 h3, spaces_nil, ?_, ?_⟩
      · intro hs
        have hs : tag ≠ b!"!DOCTYPE" := by simpa using hs
        right
        intro a ha
        rcases h5 with h5 | h5 | h5
        · exact absurd h5 hs
        · subst h5
          unfold attrsSrc at ha
          have := List.mem_of_getLast? ha
          simp only [List.map_nil, List.nil_append, List.mem_map] at this
          obtain ⟨p, _, rfl⟩ := this
          trivial
        · unfold attrsSrc at ha
          rw [List.getLast?_append_of_ne_nil _ (by simpa using h5)] at ha
          have := List.mem_of_getLast? ha
          rw [List.mem_map] at this
          obtain ⟨p, _, rfl⟩ := this
          trivial
      · by_cases ht : tag = b!"!DOCTYPE"
        · right; right; rw [ht]; rfl
        · left; simpa using ht
theorem toSrcs_clean : ∀ (ts : List Tree), PrintableAll P ts → (toSrcs P ts).Clean
  | [], _ => trivial
  | t :: ts, h => by
    refine ⟨toSrc_clean t h.1, .nil, toSrcs_clean ts h.2.1, ?_⟩
    cases t with
    | text raw =>
      show ¬ (toSrcs P ts).StartsText
      cases ts with
      | nil => simp [toSrcs, Srcs.StartsText]
      | cons t' ts' =>
        have := h.2.2 rfl t' ts' rfl
        cases t' with
        | text => cases this
        | elem tag ps bs ks =>
          unfold toSrcs toSrc
          split <;> simp [Srcs.StartsText]
    | elem tag ps bs ks =>
      unfold toSrc
      split
      · rename_i heq
        split at heq <;> cases heq
      · trivial
end

mutual
theorem toSrc_uses : ∀ (t : Tree), (toSrc P t).Uses P
  | .text raw => trivial
  | .elem tag ps bs ts => by
    unfold toSrc
    split
    · rename_i hp; exact ⟨hp, toSrcs_uses ts⟩
    · rename_i hp; simpa [Src.Uses] using hp
theorem toSrcs_uses : ∀ (ts : List Tree), (toSrcs P ts).Uses P
  | [] => trivial
  | t :: ts => ⟨toSrc_uses t, toSrcs_uses ts⟩
end

/-! ## The registry of a parsed document -/

def EvUses (P : Str → Bool) : Ev → Prop
  | .elem tag can _ => can = P tag
  | _ => True

mutual
theorem src_evUses : ∀ (t : Src), t.Clean → t.Uses P → ∀ e ∈ t.evs, EvUses P e
  | .text first more, _, _ => by simp [Src.evs, EvUses]
  | .single tag as gap slash, hc, hu => by
    intro e he
    simp only [Src.evs, List.mem_singleton] at he
    subst he
    show canS tag slash = P tag
    rw [canS_false hc.2.2.2.2]; exact hu.symm
  | .paired tag as gap lead ks gap', hc, hu => by
    intro e he
    simp only [Src.evs, List.mem_cons, List.mem_append, List.not_mem_nil, or_false] at he
    rcases he with rfl | he | rfl
    · exact hu.1.symm
    · exact srcs_evUses ks hc.2.2.2.2.2.1 hu.2 e he
    · trivial
theorem srcs_evUses : ∀ (ks : Srcs), ks.Clean → ks.Uses P → ∀ e ∈ ks.evs, EvUses P e
  | .nil, _, _ => by simp [Srcs.evs]
  | .cons t b rest, hc, hu => by
    intro e he
    simp only [Srcs.evs, List.mem_append] at he
    rcases he with he | he
    · exact src_evUses t hc.1 hu.1 e he
    · exact srcs_evUses rest hc.2.2.1 hu.2 e he
end

def RegUses (P : Str → Bool) (d : Dom) : Prop := ∀ r ∈ d.tagReg.drop 1, r.2 = P r.1

theorem addProperty_tagReg {n : Nat} {k v : Str} {d d' : Dom} (h : addProperty n k v d = .ok d') : d'.tagReg = d.tagReg := by
  simp only [addProperty, internKey, internVal, Out.bind_eq_ok] at h
  obtain ⟨⟨a, d1⟩, ⟨r1, _, e1⟩, ⟨b, d2⟩, ⟨r2, _, e2⟩, e⟩ := h
  cases e1; cases e2; cases e; rfl

theorem addBoolProperty_tagReg {n : Nat} {k : Str} {d d' : Dom} (h : addBoolProperty n k d = .ok d') : d'.tagReg = d.tagReg := by
  simp only [addBoolProperty, internBool, Out.bind_eq_ok] at h
  obtain ⟨⟨a, d1⟩, ⟨r1, _, e1⟩, e⟩ := h
  cases e1; cases e; rfl

theorem buildAttrs_tagReg {n : Nat} : ∀ {as : List Attr} {d d' : Dom}, buildAttrs n as d = .ok d' → d'.tagReg = d.tagReg := by
  intro as
  induction as with
  | nil => intro d d' h; cases h; rfl
  | cons a as ih =>
    intro d d' h
    simp only [buildAttrs, Out.bind_eq_ok] at h
    obtain ⟨d1, h1, h2⟩ := h
    rw [ih h2]
    cases a with
    | bool b => exact addBoolProperty_tagReg h1
    | pair k v => exact addProperty_tagReg h1

theorem setTag_regUses {tag : Str} {n : Nat} {can : Bool} {d d' : Dom} (hne : d.tagReg ≠ []) (h : RegUses P d) (hc : can = P tag)
    (hs : setTag tag n can d = .ok d') : RegUses P d' ∧ d'.tagReg ≠ [] := by
  simp only [setTag, Out.bind_eq_ok] at hs
  obtain ⟨r, _, nd, _, e⟩ := hs
  cases e
  show (∀ x ∈ (if r.wasInserted then d.tagReg ++ [(tag, can)] else d.tagReg).drop 1, _) ∧ (if r.wasInserted then d.tagReg ++ [(tag, can)] else d.tagReg) ≠ []
  split
  · refine ⟨?_, by simp⟩
    intro x hx
    rw [List.drop_append_of_le_length (by have := List.length_pos_iff.mpr hne; omega), List.mem_append] at hx
    rcases hx with hx | hx
    · exact h x hx
    · simp at hx; subst hx; exact hc
  · exact ⟨h, hne⟩

theorem parserUpdate_tagReg (new prev : Nat) (stack : List (Nat × Str)) (d : Dom) :
    (parserUpdateReferences new prev stack d).tagReg = d.tagReg := by
  unfold parserUpdateReferences
  split
  · split
    · rfl
    · dsimp only
      split <;> rfl
  · rfl

theorem runEvs_regUses {startLen : Nat} : ∀ {evs : List Ev} {b : BState} {r : ParseRes}, b.dom.tagReg ≠ [] → RegUses P b.dom →
    (∀ e ∈ evs, EvUses P e) → runEvs startLen evs b = .ok r → RegUses P r.dom := by
  intro evs
  induction evs with
  | nil => intro b r _ h _ hr; cases hr; exact h
  | cons e es ih =>
    intro b r hne h he hr
    have hes : ∀ e ∈ es, EvUses P e := fun x hx => he x (by simp [hx])
    simp only [runEvs, Out.bind_eq_ok] at hr
    obtain ⟨x, h1, h2⟩ := hr
    cases e with
    | text raw =>
      simp only [runEv, Out.bind_eq_ok] at h1
      obtain ⟨⟨id, d1⟩, h3, h4⟩ := h1
      cases h4
      simp only [parseTextElement, Out.bind_eq_ok] at h3
      obtain ⟨⟨id', d2⟩, h5, nd, _, h6⟩ := h3
      cases h6
      obtain ⟨_, _, e3⟩ := createNode_eq h5
      have ereg : d2.tagReg = b.dom.tagReg := by rw [e3]
      refine ih ?_ ?_ hes h2
      · show (parserUpdateReferences _ _ _ _).tagReg ≠ []
        rw [parserUpdate_tagReg]; show d2.tagReg ≠ []; rw [ereg]; exact hne
      · show ∀ x ∈ (parserUpdateReferences _ _ _ _).tagReg.drop 1, _
        rw [parserUpdate_tagReg]; show ∀ x ∈ d2.tagReg.drop 1, _; rw [ereg]; exact h
    | close =>
      simp only [runEv] at h1
      split at h1
      · split at h1
        · rename_i id tg rest hst hgt
          cases h1; exact ih (b := ⟨b.dom, rest, id⟩) hne h hes h2
        · cases h1; exact ih hne h hes h2
      · cases h1; exact ih hne h hes h2
    | elem tag can as =>
      have hcan : can = P tag := he _ (List.mem_cons_self ..)
      simp only [runEv, Out.bind_eq_ok] at h1
      obtain ⟨⟨id, d1⟩, h3, h4⟩ := h1
      simp only [buildElem, Out.bind_eq_ok] at h3
      obtain ⟨⟨id', d2⟩, h5, d3, h6, d4, h7, h8⟩ := h3
      cases h8
      obtain ⟨_, _, e3⟩ := createNode_eq h5
      have ereg : d3.tagReg = b.dom.tagReg := by rw [buildAttrs_tagReg h6, e3]
      have hr3 : RegUses P d3 := by unfold RegUses; rw [ereg]; exact h
      obtain ⟨g1, g2⟩ := setTag_regUses (by rw [ereg]; exact hne) hr3 hcan h7
      have g3 : (parserUpdateReferences id' b.prev b.stack d1).tagReg ≠ [] := by rw [parserUpdate_tagReg]; exact g2
      have g4 : RegUses P (parserUpdateReferences id' b.prev b.stack d1) := by unfold RegUses; rw [parserUpdate_tagReg]; exact g1
      split at h4
      · split at h4
        · cases h4; cases h2; exact g4
        · cases h4; exact ih g3 g4 hes h2
      · cases h4; exact ih g3 g4 hes h2

theorem createDom_regUses {lead : Str} {ks : Srcs} (hl : Blank lead) (hk : ks.Clean) (hu : ks.Uses P) {d : Dom}
    (h : createDom (lead ++ ks.render) = .ok (some d)) : RegUses P d := by
  simp only [createDom, Out.bind_eq_ok] at h
  obtain ⟨r, h1, h2⟩ := h
  have hlex := lex_doc (s := lead ++ ks.render) hl hk rfl (rootBase_ok _)
  rw [parseRoot_lex hlex] at h1
  have := runEvs_regUses (P := P) (by simp [Dom.init]) (by simp [RegUses, Dom.init]) (srcs_evUses ks hk hu) h1
  split at h2
  · cases h2; exact this
  · cases h2

/-! ## Printing with the registry -/

theorem paired_eq {d : Dom} {ch : Nat → List Nat} (h : DomI d ch) (hu : RegUses P d) {n : Nat} {tag : Str} (ht : tagOf d n = some tag) :
    pairedTag d tag = P tag := by
  unfold tagOf at ht
  split at ht
  · rename_i t hget
    rw [Option.map_eq_some_iff] at ht
    obtain ⟨r, hr, rfl⟩ := ht
    obtain ⟨t', e1, e2, e3⟩ := (h.good n _ hget).doc rfl
    cases e1
    rw [tagReg_find h.names e2 hr]
    refine hu r ?_
    refine List.mem_of_getElem? (i := t - 1) ?_
    rw [List.getElem?_drop, show 1 + (t - 1) = t by omega]; exact hr
  · cases ht

mutual
theorem print_congr {d : Dom} {ch : Nat → List Nat} (h : DomI d ch) (hu : RegUses P d) : ∀ (t : Tree) (n : Nat), Rep d t n →
    t.print (pairedTag d) = t.print P
  | .text raw, n, _ => by simp [Tree.print]
  | .elem tag ps bs ts, n, hr => by
    unfold Tree.print
    rw [paired_eq h hu hr.1, printAll_congr h hu ts _ hr.2.2.2]
theorem printAll_congr {d : Dom} {ch : Nat → List Nat} (h : DomI d ch) (hu : RegUses P d) : ∀ (ts : List Tree) (ns : List Nat),
    RepL d ts ns → printAll (pairedTag d) ts = printAll P ts
  | [], [], _ => rfl
  | [], _ :: _, hr => False.elim hr
  | _ :: _, [], hr => False.elim hr
  | t :: ts, n :: ns, hr => by
    unfold printAll
    rw [print_congr h hu t n hr.1, printAll_congr h hu ts ns hr.2]
end

theorem print_source {lead : Str} {ks : Srcs} (hl : Blank lead) (hk : ks.Clean) (hd : ks.depth ≤ 255) (hu : ks.Uses P) {d : Dom}
    (h : createDom (lead ++ ks.render) = .ok (some d)) :
    printHTML d = .ok (printAll P ks.trees) := by
  have hi := (reach_domI (.parsed h)).1
  have hF : RepL d ks.trees (kids d 1) := by
    rcases createDom_src hl hk hd with h1 | ⟨d', h1, h2⟩
    · rw [h] at h1; cases h1
    · rw [h] at h1; cases h1; exact h2
  rw [printHTML_forest hi hF, printAll_congr hi (createDom_regUses hl hk hu h) _ _ hF]

theorem reparse {F : List Tree} (hp : PrintableAll P F) (hn : nestingAll P F ≤ 255) (hlen : (printAll P F).length ≤ 65533) :
    ∃ d', createDom (printAll P F) = .ok (some d') ∧ RepL d' F (kids d' 1) ∧ printHTML d' = .ok (printAll P F) := by
  have hk := toSrcs_clean F hp
  have hd : (toSrcs P F).depth ≤ 255 := by rw [toSrcs_depth]; exact hn
  have he : [] ++ (toSrcs P F).render = printAll P F := by rw [toSrcs_render]; rfl
  rcases createDom_src .nil hk hd with h | ⟨d', h1, h2⟩
  · rw [he] at h; exact absurd h (createDom_nj hlen)
  · rw [toSrcs_trees F hp] at h2
    have h3 := print_source .nil hk hd (toSrcs_uses F) h1
    rw [toSrcs_trees F hp] at h3
    rw [he] at h1
    exact ⟨d', h1, h2, h3⟩

end
end Flo
