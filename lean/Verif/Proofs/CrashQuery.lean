import Verif.Proofs.CrashEdit
import Verif.Proofs.QueryParse
/-!
# Queries on a DOM to which only names, or names and unlinked nodes, have been added (C131)
-/
namespace Flo.Crash
open Spec CM

/-- `d'` is `d` with names registered besides. -/
structure NamesOnly (d d' : Dom) : Prop where
  ext : Ext d d'
  nodes : d'.nodes = d.nodes
  fc : d'.fc = d.fc
  pc : d'.pc = d.pc
  nn : d'.nn = d.nn
  bools : d'.boolProps = d.boolProps
  props : d'.props = d.props

theorem NamesOnly.rfl' (d : Dom) : NamesOnly d d := ⟨.rfl' d, rfl, rfl, rfl, rfl, rfl, rfl⟩

theorem interning_names (d : Dom) : Interning (NamesOnly d) where
  boolMap h e := { h with ext := (closed_ext d).boolMap h.ext e }
  keyMap h e := { h with ext := (closed_ext d).keyMap h.ext e }
  valMap h e := { h with ext := (closed_ext d).valMap h.ext e }
  tagMap h e := { h with ext := (closed_ext d).tagMap h.ext e }
  boolReg h := { h with ext := (closed_ext d).boolReg h.ext }
  keyReg h := { h with ext := (closed_ext d).keyReg h.ext }
  valReg h := { h with ext := (closed_ext d).valReg h.ext }
  tagReg h := { h with ext := (closed_ext d).tagReg h.ext }

section
variable {d d' : Dom} (h : NamesOnly d d') (pun : Nat → Nat)
include h

theorem NamesOnly.node (n : Nat) : d'.node n = d.node n := by unfold Dom.node; rw [h.nodes]

theorem NamesOnly.filter (n : Nat) : ∀ fs, filterNode pun n d' fs = filterNode pun n d fs
  | [] => rfl
  | .all :: _ => rfl
  | .tag t :: fs => by
    unfold filterNode
    rw [h.node n, NamesOnly.filter n fs]
  | .bool b :: fs => by
    unfold filterNode
    rw [h.bools, NamesOnly.filter n fs]
  | .prop k v :: fs => by
    unfold filterNode
    rw [h.props, NamesOnly.filter n fs]

theorem NamesOnly.all (fs : List Filter) : ∀ is set, allNodesLoop pun fs d' is set = allNodesLoop pun fs d is set
  | [], _ => rfl
  | i :: is, set => by
    unfold allNodesLoop
    rw [h.filter pun i fs]
    simp only [NamesOnly.all fs is]

theorem NamesOnly.next (n : Nat) : getNext n d' = getNext n d := by unfold getNext getNextNode; rw [h.nn]

theorem NamesOnly.siblings (fs : List Filter) : ∀ f k n set, siblingsLoop pun fs d' f k n set = siblingsLoop pun fs d f k n set
  | 0, _, _, _ => rfl
  | f + 1, k, n, set => by
    unfold siblingsLoop
    rw [h.filter pun n fs, h.next n]
    simp only [NamesOnly.siblings fs f]

theorem NamesOnly.adjacents (fs : List Filter) (k : Option Nat) : ∀ vs acc, adjacentsLoop pun fs d' k vs acc = adjacentsLoop pun fs d k vs acc
  | [], _ => rfl
  | v :: vs, acc => by
    unfold adjacentsLoop
    rw [h.nn, h.next v, h.siblings pun fs]
    simp only [NamesOnly.adjacents fs k vs]

theorem NamesOnly.pass (fs : List Filter) (filled : U16Set) : ∀ rs a b, descPass pun fs d' filled rs a b = descPass pun fs d filled rs a b
  | [], _, _ => rfl
  | (p, c) :: rs, a, b => by
    unfold descPass
    rw [h.node c, h.filter pun c fs]
    simp only [NamesOnly.pass fs filled rs]

theorem NamesOnly.levels (fs : List Filter) : ∀ f k a b c, descLoop pun fs d' f k a b c = descLoop pun fs d f k a b c
  | 0, _, _, _, _ => rfl
  | f + 1, k, a, b, c => by
    unfold descLoop
    rw [h.pc, h.pass pun fs a]
    simp only [NamesOnly.levels fs f]

theorem NamesOnly.apply (c : Combinator) (fs : List Filter) (set : U16Set) : applyCombinator pun c fs d' set = applyCombinator pun c fs d set := by
  unfold applyCombinator
  cases c
  · exact (by unfold nodesWithoutCombinator; rw [h.nodes]; exact h.all pun fs _ _)
  · exact h.adjacents pun fs _ _ _
  · exact (by unfold filteredDescendants; rw [h.nodes]; simp only [h.levels pun fs])
  · exact h.adjacents pun fs _ _ _
  · exact (by unfold filteredDescendants; rw [h.nodes]; simp only [h.levels pun fs])
end

/-- The two readings of a query agree, unless the first is that a name is unknown. -/
def AsBefore {α : Type} (x y : Out (QRes α)) : Prop := x = .ok (.fail .notSeenBefore) ∨ y = x

theorem AsBefore.bind {α β : Type} {x y : Out (QRes α)} {f g : QRes α → Out (QRes β)} (h : AsBefore x y)
    (hf : f (.fail .notSeenBefore) = .ok (.fail .notSeenBefore)) (hg : ∀ r, AsBefore (f r) (g r)) : AsBefore (x >>= f) (y >>= g) := by
  rcases h with h | h
  · subst h; exact Or.inl hf
  · subst h
    cases y with
    | ok r => exact hg r
    | _ => exact Or.inr rfl

section
variable {d d' : Dom} (h : Ext d d')
include h

theorem Ext.lead (s : Str) (idx : Nat) : AsBefore (leadFilter s d idx) (leadFilter s d' idx) := by
  unfold leadFilter
  by_cases h1 : isTagStartChar (currentChar s idx) = true
  · simp only [h1, if_true]
    cases hs : subStr s idx ((scanUntil endOfCurrentFilter (s.drop idx) idx : Int) - idx) with
    | ok tag =>
      simp only [Out.bind_ok]
      by_cases ht : d.tagMap.contains tag = 0
      · left; rw [if_pos ht]
      · right; rw [h.tagMap.keep tag ht]
    | _ => exact Or.inr rfl
  · simp only [h1]
    exact Or.inr rfl

theorem Ext.attrFilters (s : Str) : ∀ f idx fs, AsBefore (attrFilters s d f idx fs) (attrFilters s d' f idx fs)
  | 0, _, _ => Or.inr rfl
  | f + 1, idx, fs => by
    have ih := Ext.attrFilters s f
    unfold Flo.attrFilters
    cases hc : s[idx]? with
    | none => exact Or.inr rfl
    | some c =>
      simp only
      split
      · split
        · exact Or.inr rfl
        · cases hp : parseToken s (scanUntil isTagStartChar (s.drop idx) idx) with
          | ok r =>
            obtain ⟨token, i⟩ := r
            simp only [Out.bind_ok]
            split
            · by_cases hk : d.keyMap.contains (if (c == 46) = true then b!"class" else b!"id") = 0
              · left; rw [if_pos hk]
              · rw [if_neg hk, h.keyMap.keep _ hk, if_neg hk]
                by_cases hv : d.valMap.contains token = 0
                · left; rw [if_pos hv]
                · rw [if_neg hv, h.valMap.keep _ hv, if_neg hv]
                  exact ih _ _
            · split
              · by_cases hb : d.boolMap.contains token = 0
                · left; rw [if_pos hb]
                · rw [if_neg hb, h.boolMap.keep _ hb, if_neg hb]
                  exact ih _ _
              · split
                · by_cases hk : d.keyMap.contains token = 0
                  · left; rw [if_pos hk]
                  · rw [if_neg hk, h.keyMap.keep _ hk, if_neg hk]
                    cases hq : parseToken s (scanUntil isTagStartChar (s.drop (i + 1)) (i + 1)) with
                    | ok r =>
                      obtain ⟨value, j⟩ := r
                      simp only [Out.bind_ok]
                      by_cases hv : d.valMap.contains value = 0
                      · left; rw [if_pos hv]
                      · rw [if_neg hv, h.valMap.keep _ hv, if_neg hv]
                        exact ih _ _
                    | _ => exact Or.inr rfl
                · exact ih _ _
          | _ => exact Or.inr rfl
      · exact Or.inr rfl
end

section
variable {d d' : Dom} (h : NamesOnly d d') (pun : Nat → Nat)
include h

theorem NamesOnly.loop (s : Str) : ∀ f idx c set, AsBefore (queryLoop pun s d f idx c set) (queryLoop pun s d' f idx c set)
  | 0, _, _, _ => Or.inr rfl
  | f + 1, idx, c, set => by
    unfold queryLoop
    split
    · refine (h.ext.lead s idx).bind rfl fun r => ?_
      cases r with
      | fail st => exact Or.inr rfl
      | go a =>
        refine (h.ext.attrFilters s _ a.1 a.2).bind rfl fun r => ?_
        cases r with
        | fail st => exact Or.inr rfl
        | go b =>
          simp only
          split
          · exact Or.inr rfl
          · rw [h.apply pun]
            cases applyCombinator pun c b.2 d set with
            | ok set' => exact NamesOnly.loop s f _ _ set'
            | _ => exact Or.inr rfl
    · exact Or.inr rfl

theorem NamesOnly.parts (css : Str) : ∀ f start set res, AsBefore (selectLoop pun css d f start set res) (selectLoop pun css d' f start set res)
  | 0, _, _, _ => Or.inr rfl
  | f + 1, start, set, res => by
    unfold selectLoop
    split
    · refine AsBefore.bind (h.loop pun _ _ _ _ _) rfl fun r => ?_
      cases r with
      | fail st => exact Or.inr rfl
      | go a =>
        simp only
        cases u16InsertAll (a.toList 0) res with
        | ok r => exact NamesOnly.parts css f _ _ r
        | _ => exact Or.inr rfl
    · exact Or.inr rfl

theorem NamesOnly.query (css : Str) : AsBefore (querySelectorAll pun css d) (querySelectorAll pun css d') :=
  (h.parts pun css _ _ _ _).bind rfl fun r => by cases r <;> exact Or.inr rfl

end

/-! ## New nodes that are not linked to anything -/

/-- `d'` is `d` with names and unlinked nodes besides. -/
def Spare (d d' : Dom) : Prop := Built d d' ∧ d'.nodes.length ≤ 65535

theorem closed_spare (d : Dom) : Closed d.nodes.length (Spare d) := closed_fits d

section
variable {d : Dom} {ch : Nat → List Nat} (hi : DomI d ch)
include hi

theorem replaceDoc_spare (old : Nat) (doc : DocNode) : Tri (Spare d) (replaceWithDocumentNodeC old doc) (fun _ _ => True) (Spare d) := by
  unfold replaceWithDocumentNodeC
  refine (parseDocumentElement_tri (closed_spare d) doc).bind fun id => ?_
  refine Tri.iteC (fun _ => Tri.pure fun _ _ => trivial) fun _ => ?_
  refine ((replaceUpdate_tri (I := Spare d) old id).mono (fun x h => ⟨h.1, built_next hi h.1.1 h.2⟩) (fun _ _ h => h) fun _ h => h).bind fun _ => ?_
  exact Tri.pure fun _ _ => trivial

theorem replaceText_spare (old : Nat) (text : Str) : Tri (Spare d) (replaceWithTextNodeC old text) (fun _ _ => True) (Spare d) := by
  unfold replaceWithTextNodeC
  refine (parseTextElement_tri (closed_spare d) text).bind fun id => ?_
  refine Tri.iteC (fun _ => Tri.pure fun _ _ => trivial) fun _ => Tri.hyp fun hn => ?_
  refine (mergeBoth_tri (closed_spare d) old id).bind fun b => ?_
  refine Tri.iteC (fun _ => ?_) fun hb => ?_
  · exact (Tri.change (removeNode_noJump id)).bind fun _ => (Tri.change (removeNode_noJump old)).bind fun _ => Tri.pure fun _ _ => trivial
  · have hb : b = false := by simpa using hb
    refine ((replaceUpdate_tri (I := Spare d) old id).mono (fun x h => ⟨h hb, built_next hi (h hb).1 hn⟩) (fun _ _ h => h) fun _ h => h).bind fun _ => ?_
    exact Tri.pure fun _ _ => trivial
end

section
variable {d d' : Dom} (h : Ext d d') (pun : Nat → Nat)
include h

theorem Ext.fsat {n : Nat} (hn : n < d.nodes.length) : ∀ fs, Flo.fsat pun d' n fs = Flo.fsat pun d n fs
  | [] => rfl
  | .all :: _ => rfl
  | .tag t :: fs => by
    unfold Flo.fsat
    rw [h.get hn, Ext.fsat hn fs]
  | .bool b :: fs => by
    unfold Flo.fsat
    rw [rows_any h.bools fun r hr => by have : r.1 ≠ n := by omega
                                        simp [this], Ext.fsat hn fs]
  | .prop k v :: fs => by
    unfold Flo.fsat
    rw [rows_any h.props fun r hr => by have : r.node ≠ n := by omega
                                        simp [this], Ext.fsat hn fs]

theorem Ext.typeOf {n : Nat} (hn : n < d.nodes.length) : Flo.Spec.typeOf d' n = Flo.Spec.typeOf d n := by
  unfold Flo.Spec.typeOf
  rw [h.get hn]

theorem Ext.steps (s : Str) : ∀ f idx c, AsBefore (parseSteps s d f idx c) (parseSteps s d' f idx c)
  | 0, _, _ => Or.inr rfl
  | f + 1, idx, c => by
    unfold parseSteps
    split
    · refine (h.lead s idx).bind rfl fun r => ?_
      cases r with
      | fail st => exact Or.inr rfl
      | go a =>
        refine (h.attrFilters s _ a.1 a.2).bind rfl fun r => ?_
        cases r with
        | fail st => exact Or.inr rfl
        | go b =>
          simp only
          split
          · exact Or.inr rfl
          · exact (Ext.steps s f _ _).bind rfl fun r => by cases r <;> exact Or.inr rfl
    · exact Or.inr rfl

theorem Ext.part {s : Str} {l : List QStep} (e : partSteps s d = .ok (.go l)) : partSteps s d' = .ok (.go l) := by
  rcases h.steps s (s.length + 1) (scanUntil (fun ch => isElementStartChar ch || ch == 91 || ch == 42) s 0) .none with h' | h'
  · have e' : partSteps s d = .ok (.fail .notSeenBefore) := h'
    rw [e] at e'; cases e'
  · have e' : partSteps s d' = partSteps s d := h'
    rw [e', e]

end

/-- Two sets agree on the identifiers below `N`. -/
def Agree (N : Nat) (S S' : Nat → Prop) : Prop := ∀ n, n < N → (S n ↔ S' n)

section
variable {d d' : Dom} {ch : Nat → List Nat} (hw : Walkable d ch) (h : Spare d d') (pun : Nat → Nat)
include hw h

theorem Spare.walk : Walkable d' ch where
  linked := by
    show Linked d'.nodes.length d'.fc d'.pc d'.nn ch
    rw [h.1.fc, h.1.pc, h.1.nn]
    exact hw.linked.mono h.1.ext.nodes.length_le
  cap := h.2
  zero := by
    have := hw.linked.two
    rw [h.1.ext.typeOf (by omega)]
    exact hw.zero

theorem Spare.nx {a b : Nat} : Nx d' a b ↔ Nx d a b := by
  unfold Nx getNext getNextNode
  rw [h.1.nn]

theorem Spare.pc {p c : Nat} : Pc d' p c ↔ Pc d p c := by
  unfold Pc
  rw [h.1.pc]
  refine and_congr_right fun hm => ?_
  have h2 := hw.linked.two
  by_cases hc : c = 0
  · subst hc
    rw [h.1.ext.typeOf (by omega)]
  · rw [h.1.ext.typeOf (hw.linked.pcLt p c hm hc).2.2]

omit h in
theorem nx_from {a b : Nat} (hn : Nx d a b) : a < d.nodes.length := by
  obtain ⟨hb, h0⟩ := hn
  have ha : a ≠ 0 := fun e => by
    subst e
    exact nx_zero hw.linked ⟨hb, h0⟩
  unfold getNext getNextNode at hb
  cases e : d.nn.findIdx? (fun r => r.1 == a) with
  | none => rw [e] at hb; exact absurd hb.symm h0
  | some i =>
    have hlt := (List.findIdx?_eq_some_iff_findIdx_eq.mp e).1
    have hi : d.nn[i].1 = a := by
      have := List.findIdx?_eq_some_iff_getElem.mp e
      obtain ⟨_, hp, _⟩ := this
      simpa using hp
    have hm : (a, d.nn[i].2) ∈ d.nn := by
      rw [← hi]; exact List.getElem_mem hlt
    exact (hw.linked.nnLt a _ hm ha).1.2

omit h in
theorem pc_from {p c : Nat} (hp : Pc d p c) : p < d.nodes.length := by
  have h1 := pc_up hw.linked hw.zero hp
  have h2 := hw.linked.two
  by_cases hc : c = 0
  · subst hc
    exact absurd hp.2 (by rw [hw.zero]; simp)
  · have := hw.linked.pcLt p c hp.1 hc
    omega

theorem Spare.sem {c : Combinator} {fs : List Filter} {S S' : Nat → Prop} (ha : Agree d.nodes.length S S') :
    Agree d.nodes.length (Flo.sem pun d c fs S) (Flo.sem pun d' c fs S') := by
  intro n hn
  have hf := h.1.ext.fsat pun hn fs
  have hle := h.1.ext.nodes.length_le
  have nx := fun a b => (Spare.nx hw h (a := a) (b := b))
  have pc := fun a b => (Spare.pc hw h (p := a) (c := b))
  have nx' : Nx d' = Nx d := by funext a b; exact propext (nx a b)
  have pc' : Pc d' = Pc d := by funext a b; exact propext (pc a b)
  have head : ∀ {R : Nat → Nat → Prop}, (∀ a b, R a b → a < d.nodes.length) → ((∃ v, S v ∧ R v n) ↔ ∃ v, S' v ∧ R v n) := fun hR =>
    ⟨fun ⟨v, s, r⟩ => ⟨v, (ha v (hR _ _ r)).mp s, r⟩, fun ⟨v, s, r⟩ => ⟨v, (ha v (hR _ _ r)).mpr s, r⟩⟩
  have tr : ∀ {R : Nat → Nat → Prop}, (∀ a b, R a b → a < d.nodes.length) → ∀ a b, Relation.TransGen R a b → a < d.nodes.length := fun hR a b r => by
    obtain ⟨w, r, _⟩ := Relation.TransGen.head'_iff.mp r
    exact hR _ _ r
  have hnx : ∀ a b, Nx d a b → a < d.nodes.length := fun _ _ => nx_from hw
  have hpc : ∀ a b, Pc d a b → a < d.nodes.length := fun _ _ => pc_from hw
  cases c with
  | none =>
    unfold Flo.sem
    rw [hf, ha n hn]
    have : n < d'.nodes.length ↔ n < d.nodes.length := ⟨fun _ => hn, fun _ => by omega⟩
    simp only [this]
  | adjacent => unfold Flo.sem; rw [hf, nx']; exact and_congr_right fun _ => head hnx
  | general => unfold Flo.sem; rw [hf, nx']; exact and_congr_right fun _ => head (tr hnx)
  | child => unfold Flo.sem; rw [hf, pc']; exact and_congr_right fun _ => head hpc
  | descendant => unfold Flo.sem; rw [hf, pc']; exact and_congr_right fun _ => head (tr hpc)

theorem Spare.eval : ∀ (l : List QStep) (S S' : Nat → Prop), Agree d.nodes.length S S' →
    Agree d.nodes.length (evalSteps pun d l S) (evalSteps pun d' l S')
  | [], _, _, ha => ha
  | (c, fs) :: l, S, S', ha => Spare.eval l _ _ (Spare.sem hw h pun ha)

omit hw h in
theorem firstFail_none {ps : List Str} (e : firstFail d ps = none) : ∀ p ∈ ps, ∃ l, partSteps p d = .ok (.go l) := by
  induction ps with
  | nil => simp
  | cons p ps ih =>
    unfold firstFail at e
    obtain ⟨r, hr⟩ := partSteps_ok p d
    rw [hr] at e
    cases r with
    | fail st => cases e
    | go l =>
      intro q hq
      rcases List.mem_cons.mp hq with rfl | hq
      · exact ⟨l, hr⟩
      · exact ih e q hq

omit hw h in
theorem firstFail_of {ps : List Str} (e : ∀ p ∈ ps, ∃ l, partSteps p d = .ok (.go l)) : firstFail d ps = none := by
  induction ps with
  | nil => rfl
  | cons p ps ih =>
    unfold firstFail
    obtain ⟨l, hl⟩ := e p (by simp)
    rw [hl]
    exact ih fun q hq => e q (List.mem_cons_of_mem _ hq)

/-- A query that was answered is answered with the same old nodes. -/
theorem Spare.query (css : Str) (L : List Nat) (hL : querySelectorAll pun css d = .ok (.go L)) :
    ∃ L', querySelectorAll pun css d' = .ok (.go L') ∧ L'.Nodup ∧ ∀ n, n < d.nodes.length → (n ∈ L' ↔ n ∈ L) := by
  rcases querySelectorAll_walk hw pun css with ⟨st, _, e⟩ | ⟨e0, L₀, e1, _, e3, _⟩
  · rw [hL] at e; cases e
  rw [hL] at e1
  cases e1
  have hp := firstFail_none e0
  have hp' : ∀ p ∈ splitComma css, ∃ l, partSteps p d' = .ok (.go l) := fun p m => (hp p m).imp fun l hl => h.1.ext.part hl
  rcases querySelectorAll_walk (Spare.walk hw h) pun css with ⟨st, e, _⟩ | ⟨_, L', g1, g2, g3, _⟩
  · rw [firstFail_of hp'] at e; cases e
  refine ⟨L', g1, g2, fun n hn => ?_⟩
  rw [g3, e3]
  unfold partsSem
  constructor
  · rintro ⟨p, m, l', hl', x⟩
    obtain ⟨l, hl⟩ := hp p m
    have := h.1.ext.part hl
    rw [hl'] at this
    cases this
    exact ⟨p, m, l', hl, (Spare.eval hw h pun l' _ _ (fun _ _ => Iff.rfl) n hn).mpr x⟩
  · rintro ⟨p, m, l, hl, x⟩
    exact ⟨p, m, l, h.1.ext.part hl, (Spare.eval hw h pun l _ _ (fun _ _ => Iff.rfl) n hn).mp x⟩

end

end Flo.Crash
