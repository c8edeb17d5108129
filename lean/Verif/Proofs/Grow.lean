import Verif.Proofs.Forms
/-!
# The name tables only grow (C77)
-/
namespace Flo
open Spec

/-- Every registry of `d` is an initial part of that of `d'`. -/
structure Grow (d d' : Dom) : Prop where
  tag : d.tagReg <+: d'.tagReg
  bool : d.boolReg <+: d'.boolReg
  key : d.keyReg <+: d'.keyReg
  val : d.valReg <+: d'.valReg

theorem Grow.rfl' (d : Dom) : Grow d d := ⟨List.prefix_rfl, List.prefix_rfl, List.prefix_rfl, List.prefix_rfl⟩

theorem Grow.trans {a b c : Dom} (h : Grow a b) (h' : Grow b c) : Grow a c :=
  ⟨h.tag.trans h'.tag, h.bool.trans h'.bool, h.key.trans h'.key, h.val.trans h'.val⟩

theorem Grow.same {d d' : Dom} (h : (d'.tagReg, d'.boolReg, d'.keyReg, d'.valReg) = (d.tagReg, d.boolReg, d.keyReg, d.valReg)) : Grow d d' := by
  injection h with h1 h2; injection h2 with h2 h3; injection h3 with h3 h4
  exact ⟨h1 ▸ List.prefix_rfl, h2 ▸ List.prefix_rfl, h3 ▸ List.prefix_rfl, h4 ▸ List.prefix_rfl⟩

theorem Grow.closed {d : Dom} : ∀ a b, SameRoom a b → Grow d a → Grow d b := fun _ _ h hg => hg.trans (.same h.reg)

theorem addReg_prefix {α : Type} (b : Bool) (l : List α) (x : α) : l <+: (if b then l ++ [x] else l) := by
  cases b
  · exact List.prefix_rfl
  · exact List.prefix_append _ _

theorem setTag_grow (tag : Str) (n : Nat) (can : Bool) (d : Dom) : Ok (Grow d) (setTag tag n can d) := by
  intro d' h
  simp only [setTag, Out.bind_eq_ok] at h
  obtain ⟨r, _, nd, _, e⟩ := h
  cases e
  exact ⟨addReg_prefix _ _ _, List.prefix_rfl, List.prefix_rfl, List.prefix_rfl⟩

theorem createNode_grow (ty : NodeType) (d : Dom) : Ok (fun r => Grow d r.2) (createNode ty d) := by
  rintro ⟨id, d'⟩ h
  obtain ⟨_, _, e⟩ := createNode_eq h
  rw [e]; exact Grow.same rfl

theorem addProperty_grow (n : Nat) (k v : Str) (d : Dom) : Ok (Grow d) (addProperty n k v d) := by
  intro d' h
  simp only [addProperty, internKey, internVal, Out.bind_eq_ok] at h
  obtain ⟨⟨a, d1⟩, ⟨r1, _, e1⟩, ⟨b, d2⟩, ⟨r2, _, e2⟩, e⟩ := h
  cases e1; cases e2; cases e
  exact ⟨List.prefix_rfl, List.prefix_rfl, addReg_prefix _ _ _, addReg_prefix _ _ _⟩

theorem addBoolProperty_grow (n : Nat) (k : Str) (d : Dom) : Ok (Grow d) (addBoolProperty n k d) := by
  intro d' h
  simp only [addBoolProperty, internBool, Out.bind_eq_ok] at h
  obtain ⟨⟨a, d1⟩, ⟨r1, _, e1⟩, e⟩ := h
  cases e1; cases e
  exact ⟨List.prefix_rfl, addReg_prefix _ _ _, List.prefix_rfl, List.prefix_rfl⟩

theorem addBools_grow (n : Nat) : ∀ (l : List Str) (d : Dom), Ok (Grow d) (addBools n l d)
  | [], d => Ok.ok (.rfl' d)
  | b :: l, d => by
    unfold addBools
    exact (addBoolProperty_grow n b d).bind fun d1 h1 => (addBools_grow n l d1).mono fun _ h2 => h1.trans h2

theorem addProps_grow (n : Nat) : ∀ (l : List (Str × Str)) (d : Dom), Ok (Grow d) (addProps n l d)
  | [], d => Ok.ok (.rfl' d)
  | (k, v) :: l, d => by
    unfold addProps
    exact (addProperty_grow n k v d).bind fun d1 h1 => (addProps_grow n l d1).mono fun _ h2 => h1.trans h2

theorem buildAttrs_grow (n : Nat) : ∀ (l : List Attr) (d : Dom), Ok (Grow d) (buildAttrs n l d)
  | [], d => Ok.ok (.rfl' d)
  | a :: l, d => by
    unfold buildAttrs
    refine Ok.bind (P := Grow d) ?_ fun d1 h1 => (buildAttrs_grow n l d1).mono fun _ h2 => h1.trans h2
    cases a with
    | bool b => exact addBoolProperty_grow n b d
    | pair k v => exact addProperty_grow n k v d

theorem parseText_grow (t : Str) (d : Dom) : Ok (fun r => Grow d r.2) (parseTextElement t d) := by
  unfold parseTextElement
  refine (createNode_grow _ d).bind fun ⟨id, d1⟩ h1 => ?_
  refine Ok.triv.bind fun nd _ => Ok.ok ?_
  exact h1.trans (.same rfl)

theorem parseDoc_grow (doc : DocNode) (d : Dom) : Ok (fun r => Grow d r.2) (parseDocumentElement doc d) := by
  unfold parseDocumentElement
  refine (createNode_grow _ d).bind fun ⟨id, d1⟩ h1 => ?_
  dsimp only at h1 ⊢
  refine (setTag_grow _ _ _ d1).bind fun d2 h2 => ?_
  refine (addBools_grow id _ d2).bind fun d3 h3 => ?_
  refine (addProps_grow id _ d3).bind fun d4 h4 => Ok.ok ?_
  exact ((h1.trans h2).trans h3).trans h4

theorem buildElem_grow (tag : Str) (can : Bool) (as : List Attr) (d : Dom) : Ok (fun r => Grow d r.2) (buildElem tag can as d) := by
  unfold buildElem
  refine (createNode_grow _ d).bind fun ⟨id, d1⟩ h1 => ?_
  dsimp only at h1 ⊢
  refine (buildAttrs_grow id as d1).bind fun d2 h2 => ?_
  refine (setTag_grow _ _ _ d2).bind fun d3 h3 => Ok.ok ?_
  exact (h1.trans h2).trans h3

theorem parserUpdate_grow (new prev : Nat) (stack : List (Nat × Str)) (d : Dom) :
    Grow d (parserUpdateReferences new prev stack d) := by
  unfold parserUpdateReferences
  split
  · split
    · exact .same rfl
    · dsimp only
      split <;> exact .same rfl
  · exact .same rfl

theorem runEvs_grow {startLen : Nat} {d : Dom} : ∀ (es : List Ev) (b : BState), Grow d b.dom →
    Ok (fun r => Grow d r.dom) (runEvs startLen es b)
  | [], b, h => Ok.ok h
  | e :: es, b, h => by
    unfold runEvs
    refine Ok.bind (P := fun x => match x with | .inl b' => Grow d b'.dom | .inr d' => Grow d d') ?_ ?_
    · cases e with
      | text raw =>
        unfold runEv
        refine (parseText_grow raw b.dom).bind fun ⟨id, d1⟩ h1 => Ok.ok ?_
        exact (h.trans h1).trans (parserUpdate_grow _ _ _ _)
      | close =>
        simp only [runEv]
        split
        · split <;> exact Ok.ok h
        · exact Ok.ok h
      | elem tag can as =>
        unfold runEv
        refine (buildElem_grow tag can as b.dom).bind fun ⟨id, d1⟩ h1 => ?_
        have h2 := (h.trans h1).trans (parserUpdate_grow id b.prev b.stack d1)
        dsimp only at h1 h2 ⊢
        split
        · split <;> exact Ok.ok h2
        · exact Ok.ok h2
    · intro x hx
      cases x with
      | inl b' => exact runEvs_grow es b' hx
      | inr d' => exact Ok.ok hx

theorem parseExtra_grow {junk : Nat → Out Bool} (hj : Reads junk) (s : Str) (d : Dom) :
    Ok (fun r => Grow d r.dom) (parseExtra junk s d) := by
  intro r hr
  have := (parse_trace (E := fun _ => True) (junk := junk) (s := s) (d := d) (prev := 0) (stack := [])
    (fun _ i => by obtain ⟨b, e⟩ := hj i; rw [e]; trivial) (fun _ _ => trivial)).elim hr
  obtain ⟨evs, _, e⟩ := this
  exact runEvs_grow (d := d) evs ⟨d, [], 0⟩ (.rfl' d) r e

theorem runAttr_grow (op : AttrOp) (d : Dom) : Ok (Grow d) (runAttr op d) := by
  cases op with
  | add n k v => exact addProperty_grow n k v d
  | addBool n b => exact addBoolProperty_grow n b d
  | set n k v =>
    unfold runAttr
    refine Ok.bind (P := fun r => Grow d r.2) ?_ (fun ⟨_, d1⟩ h1 => Ok.ok h1)
    unfold setPropertyValue
    dsimp only
    split
    · exact Ok.ok (.rfl' d)
    · split
      · exact Ok.ok (.rfl' d)
      · refine Ok.bind (P := fun r => Grow d r.2) ?_ (fun ⟨_, d1⟩ h1 => Ok.ok (h1.trans (.same rfl)))
        unfold internVal
        exact Ok.triv.bind fun _ _ => Ok.ok ⟨List.prefix_rfl, List.prefix_rfl, List.prefix_rfl, addReg_prefix _ _ _⟩
  | remove n k =>
    refine Ok.ok ?_
    unfold removeProperty
    dsimp only
    split
    · split <;> exact .same rfl
    · exact .same rfl
  | removeBool n b =>
    refine Ok.ok ?_
    unfold removeBoolProperty
    dsimp only
    split
    · split <;> exact .same rfl
    · exact .same rfl

/-- No operation removes or renumbers a name. -/
theorem runOp_grow {junk : Nat → Out Bool} (hj : Reads junk) (op : Op) (d : Dom) : Ok (Grow d) (runOp junk op d) := by
  have hr := Grow.rfl' d
  cases op with
  | attr op => exact runAttr_grow op d
  | addText n t a => exact (addTextToTextNode_nj n t a d).ok'.mono fun _ h => Grow.closed _ _ h hr
  | setTag t n p => exact setTag_grow t n p d
  | setText n t =>
    refine setTextContent_fin Grow.closed _ _ fun d1 h1 => ?_
    exact (parseText_grow _ d1).mono fun _ h => (Grow.closed _ _ h1 hr).trans h
  | removeNode n => exact (removeNode_nj n d).ok'.mono fun _ h => Grow.closed _ _ h hr
  | removeChildren n => exact (removeChildren_nj n d).ok'.mono fun _ h => Grow.closed _ _ h hr
  | appendDoc p doc => exact (appendDocumentNode_fin Grow.closed _ _ (parseDoc_grow _ d)).drop fun _ h => h
  | prependDoc p doc => exact (prependDocumentNode_fin Grow.closed _ _ (parseDoc_grow _ d)).drop fun _ h => h
  | replaceDoc p doc => exact (replaceWithDocumentNode_fin Grow.closed _ _ (parseDoc_grow _ d)).drop fun _ h => h
  | appendText p t => exact (appendTextNode_fin Grow.closed _ _ (parseText_grow _ d)).drop fun _ h => h
  | prependText p t => exact (prependTextNode_fin Grow.closed _ _ (parseText_grow _ d)).drop fun _ h => h
  | replaceText p t => exact (replaceWithTextNode_fin Grow.closed _ _ (parseText_grow _ d)).drop fun _ h => h
  | appendHTML p h => exact (appendHTML_fin Grow.closed _ _ (parseExtra_grow hj h d)).drop fun _ h => h
  | prependHTML p h => exact (prependHTML_fin Grow.closed _ _ (parseExtra_grow hj h d)).drop fun _ h => h
  | replaceHTML p h => exact (replaceWithHTML_fin Grow.closed _ _ (parseExtra_grow hj h d)).drop fun _ h => h

/-- A name keeps its number. -/
theorem MapOK.keeps {m m' : AutoMap} {reg reg' : List Str} (h : MapOK m reg) (h' : MapOK m' reg') (hp : reg <+: reg') {k : Str}
    (hk : m.contains k ≠ 0) : m'.contains k = m.contains k := by
  refine (h'.iff k _ hk).mpr ?_
  have := (h.iff k _ hk).mp rfl
  obtain ⟨t, rfl⟩ := hp
  rw [List.getElem?_append_left (lt_of_some this)]; exact this

/-- Names known to `d` have the same numbers in `d'`. -/
structure Keeps (d d' : Dom) : Prop where
  tag : ∀ k, d.tagMap.contains k ≠ 0 → d'.tagMap.contains k = d.tagMap.contains k
  bool : ∀ k, d.boolMap.contains k ≠ 0 → d'.boolMap.contains k = d.boolMap.contains k
  key : ∀ k, d.keyMap.contains k ≠ 0 → d'.keyMap.contains k = d.keyMap.contains k
  val : ∀ k, d.valMap.contains k ≠ 0 → d'.valMap.contains k = d.valMap.contains k

theorem Grow.keeps {d d' : Dom} (h : Grow d d') (hn : NamesOK d) (hn' : NamesOK d') : Keeps d d' :=
  ⟨fun _ hk => hn.tag.keeps hn'.tag (h.tag.map _) hk, fun _ hk => hn.bool.keeps hn'.bool h.bool hk,
   fun _ hk => hn.key.keeps hn'.key h.key hk, fun _ hk => hn.val.keeps hn'.val h.val hk⟩

end Flo
