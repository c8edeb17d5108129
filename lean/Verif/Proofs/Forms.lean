import Verif.Proofs.Reparse
import Verif.Proofs.EditRoom
import Verif.Proofs.Count
import Verif.Proofs.Duplicate
import Verif.Spec.Forms
/-!
# The form kept for a tag name (C74)
-/
namespace Flo
open Spec

theorem Ok.room {C : Dom → Prop} (hC : ∀ a b, SameRoom a b → C a → C b) {α : Type} {x : Out α} {f : α → Dom} {d : Dom} (h : C d)
    (hx : NJ (fun a => SameRoom d (f a)) x) : Ok (fun a => C (f a)) x :=
  fun _ e => hC _ _ (hx.elim e) h

/-! ## What follows the creation of nodes does not touch the tag table

`C` is any property that depends only on the number of nodes and the name tables. -/

section
variable {C : Dom → Prop} (hC : ∀ a b, SameRoom a b → C a → C b) {d : Dom}
include hC

theorem appendFin (h : C d) (p n v : Nat) :
    Ok (fun r => C r.2) (appendUpdateReferences p n d >>= fun d => .ok (v, d)) :=
  (Ok.room hC (f := id) h (appendUpdateReferences_nj p n d)).bind (fun _ h => Ok.ok h)

theorem prependFin (h : C d) (p n v : Nat) :
    Ok (fun r => C r.2) (prependUpdateReferences p n d >>= fun d => .ok (v, d)) :=
  (Ok.room hC (f := id) h (prependUpdateReferences_nj p n d)).bind (fun _ h => Ok.ok h)

theorem replaceFin (h : C d) (p n v : Nat) :
    Ok (fun r => C r.2) (replaceUpdateReferences p n d >>= fun d => .ok (v, d)) :=
  (Ok.room hC (f := id) h (replaceUpdateReferences_nj p n d)).bind (fun _ h => Ok.ok h)

theorem removeFin (h : C d) (n v : Nat) :
    Ok (fun r => C r.2) (removeNode n d >>= fun d => .ok (v, d)) :=
  (Ok.room hC (f := id) h (removeNode_nj n d)).bind (fun _ h => Ok.ok h)

theorem appendDocumentNode_fin (p : Nat) (doc : DocNode) (h : Ok (fun r => C r.2) (parseDocumentElement doc d)) :
    Ok (fun r => C r.2) (appendDocumentNode p doc d) := by
  unfold appendDocumentNode
  refine h.bind (fun ⟨id, d1⟩ h1 => ?_)
  dsimp only at h1 ⊢
  split
  · exact Ok.ok h1
  · exact appendFin hC h1 _ _ _

theorem prependDocumentNode_fin (p : Nat) (doc : DocNode) (h : Ok (fun r => C r.2) (parseDocumentElement doc d)) :
    Ok (fun r => C r.2) (prependDocumentNode p doc d) := by
  unfold prependDocumentNode
  refine h.bind (fun ⟨id, d1⟩ h1 => ?_)
  dsimp only at h1 ⊢
  split
  · exact Ok.ok h1
  · exact prependFin hC h1 _ _ _

theorem replaceWithDocumentNode_fin (p : Nat) (doc : DocNode) (h : Ok (fun r => C r.2) (parseDocumentElement doc d)) :
    Ok (fun r => C r.2) (replaceWithDocumentNode p doc d) := by
  unfold replaceWithDocumentNode
  refine h.bind (fun ⟨id, d1⟩ h1 => ?_)
  dsimp only at h1 ⊢
  split
  · exact Ok.ok h1
  · exact replaceFin hC h1 _ _ _

theorem appendTextNode_fin (p : Nat) (t : Str) (h : Ok (fun r => C r.2) (parseTextElement t d)) :
    Ok (fun r => C r.2) (appendTextNode p t d) := by
  unfold appendTextNode
  refine h.bind (fun ⟨id, d1⟩ h1 => ?_)
  dsimp only at h1 ⊢
  split
  · exact Ok.ok h1
  · split
    · refine Ok.triv.bind (fun l _ => ?_)
      refine (Ok.room hC (f := Prod.snd) h1 (tryMerge_nj _ _ _ _)).bind (fun ⟨b, d2⟩ h2 => ?_)
      dsimp only at h2 ⊢
      split
      · exact removeFin hC h2 _ _
      · exact appendFin hC h2 _ _ _
    · exact appendFin hC h1 _ _ _

theorem prependTextNode_fin (p : Nat) (t : Str) (h : Ok (fun r => C r.2) (parseTextElement t d)) :
    Ok (fun r => C r.2) (prependTextNode p t d) := by
  unfold prependTextNode
  refine h.bind (fun ⟨id, d1⟩ h1 => ?_)
  dsimp only at h1 ⊢
  split
  · exact Ok.ok h1
  · split
    · refine (Ok.room hC (f := Prod.snd) h1 (tryMerge_nj _ _ _ _)).bind (fun ⟨b, d2⟩ h2 => ?_)
      dsimp only at h2 ⊢
      split
      · exact removeFin hC h2 _ _
      · exact prependFin hC h2 _ _ _
    · exact prependFin hC h1 _ _ _

theorem replaceWithTextNode_fin (o : Nat) (t : Str) (h : Ok (fun r => C r.2) (parseTextElement t d)) :
    Ok (fun r => C r.2) (replaceWithTextNode o t d) := by
  unfold replaceWithTextNode
  refine h.bind (fun ⟨id, d1⟩ h1 => ?_)
  dsimp only at h1 ⊢
  split
  · exact Ok.ok h1
  · refine (Ok.room hC (f := Prod.snd) h1 (tryMergeBothSides_nj _ _ _)).bind (fun ⟨b, d2⟩ h2 => ?_)
    dsimp only at h2 ⊢
    split
    · refine (Ok.room hC (f := fun d => d) h2 (removeNode_nj _ _)).bind (fun d3 h3 => ?_)
      exact removeFin hC h3 _ _
    · exact replaceFin hC h2 _ _ _

theorem setTextContent_fin (n : Nat) (t : Str) (h : ∀ d1, SameRoom d d1 → Ok (fun r => C r.2) (parseTextElement t d1)) :
    Ok C (setTextContent n t d) := by
  unfold setTextContent
  refine (Ok.room (C := SameRoom d) (fun _ _ h h' => h'.trans h) (f := fun d => d) (SameRoom.rfl' d) (removeChildren_nj _ _)).bind (fun d1 h1 => ?_)
  refine (h d1 h1).bind (fun ⟨id, d2⟩ h2 => ?_)
  exact Ok.ok (hC d2 _ ⟨rfl, rfl, rfl, rfl, rfl, rfl, rfl, fun _ => .inl rfl⟩ h2)

variable {junk : Nat → Out Bool}

theorem appendHTML_fin (p : Nat) (html : Str) (h : Ok (fun r => C r.dom) (parseExtra junk html d)) :
    Ok (fun r => C r.2) (appendHTML junk p html d) := by
  unfold appendHTML
  refine h.bind (fun r h1 => ?_)
  dsimp only
  split
  · exact Ok.ok h1
  · split
    · refine Ok.triv.bind (fun l _ => ?_)
      refine Ok.triv.bind (fun nd _ => ?_)
      split
      · split
        · refine Ok.triv.bind (fun l _ => ?_)
          refine (Ok.room hC (f := Prod.snd) h1 (tryMerge_nj _ _ _ _)).bind (fun ⟨b, d2⟩ h2 => ?_)
          dsimp only at h2 ⊢
          split
          · refine (Ok.room hC (f := fun d => d) h2 (removeNode_nj _ _)).bind (fun d3 h3 => ?_)
            exact appendFin hC h3 _ _ _
          · exact appendFin hC h2 _ _ _
        · exact appendFin hC h1 _ _ _
      · split
        · refine Ok.triv.bind (fun l _ => ?_)
          refine (Ok.room hC (f := Prod.snd) h1 (tryMerge_nj _ _ _ _)).bind (fun ⟨b, d2⟩ h2 => ?_)
          dsimp only at h2 ⊢
          split
          · exact removeFin hC h2 _ _
          · exact appendFin hC h2 _ _ _
        · exact appendFin hC h1 _ _ _
    · exact appendFin hC h1 _ _ _

theorem prependHTML_fin (p : Nat) (html : Str) (h : Ok (fun r => C r.dom) (parseExtra junk html d)) :
    Ok (fun r => C r.2) (prependHTML junk p html d) := by
  unfold prependHTML
  refine h.bind (fun r h1 => ?_)
  dsimp only
  split
  · exact Ok.ok h1
  · split
    · refine Ok.triv.bind (fun l _ => ?_)
      refine Ok.triv.bind (fun nd _ => ?_)
      split
      · split
        · refine (Ok.room hC (f := Prod.snd) h1 (tryMerge_nj _ _ _ _)).bind (fun ⟨b, d2⟩ h2 => ?_)
          dsimp only at h2 ⊢
          split
          · refine (Ok.room hC (f := fun d => d) h2 (removeNode_nj _ _)).bind (fun d3 h3 => ?_)
            exact prependFin hC h3 _ _ _
          · exact prependFin hC h2 _ _ _
        · exact prependFin hC h1 _ _ _
      · refine Ok.triv.bind (fun nd _ => ?_)
        split
        · refine (Ok.room hC (f := Prod.snd) h1 (tryMerge_nj _ _ _ _)).bind (fun ⟨b, d2⟩ h2 => ?_)
          dsimp only at h2 ⊢
          split
          · exact removeFin hC h2 _ _
          · exact prependFin hC h2 _ _ _
        · exact prependFin hC h1 _ _ _
    · exact prependFin hC h1 _ _ _

theorem replaceWithHTML_fin (o : Nat) (html : Str) (h : Ok (fun r => C r.dom) (parseExtra junk html d)) :
    Ok (fun r => C r.2) (replaceWithHTML junk o html d) := by
  unfold replaceWithHTML
  refine h.bind (fun r h1 => ?_)
  dsimp only
  split
  · exact Ok.ok h1
  · refine Ok.triv.bind (fun l _ => ?_)
    split
    · refine (Ok.room hC (f := Prod.snd) h1 (replaceMergeFirst_nj _ _ _)).bind (fun ⟨b, d2⟩ h2 => ?_)
      dsimp only at h2 ⊢
      refine (Ok.room hC (f := fun d => d) h2 (replaceMergeLast_nj _ _ _)).bind (fun d3 h3 => ?_)
      exact replaceFin hC h3 _ _ _
    · refine (Ok.room hC (f := Prod.snd) h1 (tryMergeBothSides_nj _ _ _)).bind (fun ⟨b, d2⟩ h2 => ?_)
      dsimp only at h2 ⊢
      split
      · refine (Ok.room hC (f := fun d => d) h2 (removeNode_nj _ _)).bind (fun d3 h3 => ?_)
        refine (Ok.room hC (f := fun d => d) h3 (removeNode_nj _ _)).bind (fun d4 h4 => ?_)
        unfold replaceReturn
        split
        · exact Ok.ok h4
        · exact Ok.ub
      · exact replaceFin hC h2 _ _ _

end

/-! ## The registry -/

/-- The tag table and the tag registry are in step. -/
def TagOK (d : Dom) : Prop := MapOK d.tagMap (d.tagReg.map (·.1))

/-- After the names `us` have been used, starting from `d`. -/
def Used (d : Dom) (us : List (Str × Bool)) (d' : Dom) : Prop :=
  TagOK d' ∧ ∀ tag, formOf d' tag = (formOf d tag).or (firstForm us tag)

/-- The tag table is the same. -/
def SameTags (d d' : Dom) : Prop := d'.tagMap = d.tagMap ∧ d'.tagReg = d.tagReg

theorem SameTags.rfl' (d : Dom) : SameTags d d := ⟨rfl, rfl⟩
theorem SameTags.trans {a b c : Dom} (h : SameTags a b) (h' : SameTags b c) : SameTags a c :=
  ⟨h'.1.trans h.1, h'.2.trans h.2⟩

theorem firstForm_nil (tag : Str) : firstForm [] tag = none := rfl

theorem firstForm_append (us vs : List (Str × Bool)) (tag : Str) :
    firstForm (us ++ vs) tag = (firstForm us tag).or (firstForm vs tag) := by
  unfold firstForm
  rw [List.find?_append]
  cases us.find? (fun u => u.1 == tag) <;> rfl

theorem firstForm_none {us : List (Str × Bool)} {tag : Str} : firstForm us tag = none ↔ tag ∉ us.map (·.1) := by
  unfold firstForm
  rw [Option.map_eq_none_iff, List.find?_eq_none]
  simp only [beq_iff_eq, List.mem_map, Prod.exists, exists_and_right, exists_eq_right, not_exists]
  constructor
  · intro h b hb; exact h (tag, b) hb rfl
  · rintro h ⟨t, b⟩ hb rfl; exact h b hb

theorem Used.same {d d' d'' : Dom} {us : List (Str × Bool)} (h : Used d us d') (e : SameTags d' d'') : Used d us d'' := by
  obtain ⟨e1, e2⟩ := e
  unfold Used TagOK formOf at *
  rw [e1, e2]; exact h

theorem Used.nil {d : Dom} (h : TagOK d) : Used d [] d := ⟨h, fun tag => by rw [firstForm_nil, Option.or_none]⟩

theorem Used.append {d d' d'' : Dom} {us vs : List (Str × Bool)} (h : Used d us d') (h' : Used d' vs d'') : Used d (us ++ vs) d'' := by
  refine ⟨h'.1, fun tag => ?_⟩
  rw [h'.2, h.2, firstForm_append, Option.or_assoc]

theorem TagOK.ne {d : Dom} (h : TagOK d) : d.tagReg ≠ [] := by
  have := h.len
  intro e; rw [e] at this; simp at this

theorem TagOK.known {d : Dom} (h : TagOK d) (tag : Str) : d.tagMap.contains tag = 0 ↔ formOf d tag = none := by
  unfold formOf
  rw [firstForm_none, List.map_drop]
  constructor
  · intro h0 hm
    obtain ⟨i, hi⟩ := List.getElem?_of_mem hm
    rw [List.getElem?_drop] at hi
    have := (h.iff tag (1 + i) (by omega)).mpr hi
    omega
  · intro hn
    by_contra h0
    have := (h.iff tag _ h0).mp rfl
    refine hn (List.mem_of_getElem? (i := d.tagMap.contains tag - 1) ?_)
    rw [List.getElem?_drop, show 1 + (d.tagMap.contains tag - 1) = d.tagMap.contains tag by omega]
    exact this

theorem setTag_used {tag : Str} {n : Nat} {can : Bool} {d : Dom} (h : TagOK d) :
    Ok (Used d [(tag, can)]) (setTag tag n can d) := by
  intro d' hs
  simp only [setTag, Out.bind_eq_ok] at hs
  obtain ⟨r, hr, nd, _, e⟩ := hs
  cases e
  have hi := h.insert tag
  rw [hr] at hi
  obtain ⟨hne, hi⟩ := hi
  by_cases hw : r.wasInserted = true
  · rw [if_pos hw] at hi
    obtain ⟨h1, _, _, h2⟩ := hi
    have hnone := (h.known tag).mp h1
    refine ⟨?_, fun t => ?_⟩
    · show MapOK r.map ((if r.wasInserted then d.tagReg ++ [(tag, can)] else d.tagReg).map (·.1))
      rw [if_pos hw]; simpa using h2
    · show firstForm ((if r.wasInserted then d.tagReg ++ [(tag, can)] else d.tagReg).drop 1) t = _
      rw [if_pos hw, List.drop_append_of_le_length (by have := List.length_pos_iff.mpr h.ne; omega), firstForm_append]
      rfl
  · rw [if_neg hw] at hi
    obtain ⟨h1, h2, h3⟩ := hi
    refine ⟨?_, fun t => ?_⟩
    · show MapOK r.map ((if r.wasInserted then d.tagReg ++ [(tag, can)] else d.tagReg).map (·.1))
      rw [if_neg hw, h2]; exact h
    · show firstForm ((if r.wasInserted then d.tagReg ++ [(tag, can)] else d.tagReg).drop 1) t = _
      rw [if_neg hw]
      show formOf d t = (formOf d t).or (firstForm [(tag, can)] t)
      by_cases ht : t = tag
      · subst ht
        cases hf : formOf d t with
        | some b => rfl
        | none =>
          have := (h.known t).mpr hf
          rw [this] at h1
          exact absurd h1.symm hne
      · have : firstForm [(tag, can)] t = none := by rw [firstForm_none]; simpa using ht
        rw [this, Option.or_none]

theorem createNode_tags (ty : NodeType) (d : Dom) : Ok (fun r => SameTags d r.2) (createNode ty d) := by
  rintro ⟨id, d'⟩ h
  obtain ⟨_, _, e⟩ := createNode_eq h
  rw [e]; exact ⟨rfl, rfl⟩

theorem addProperty_tags (n : Nat) (k v : Str) (d : Dom) : Ok (SameTags d) (addProperty n k v d) := by
  intro d' h
  simp only [addProperty, internKey, internVal, Out.bind_eq_ok] at h
  obtain ⟨⟨a, d1⟩, ⟨r1, _, e1⟩, ⟨b, d2⟩, ⟨r2, _, e2⟩, e⟩ := h
  cases e1; cases e2; cases e; exact ⟨rfl, rfl⟩

theorem addBoolProperty_tags (n : Nat) (k : Str) (d : Dom) : Ok (SameTags d) (addBoolProperty n k d) := by
  intro d' h
  simp only [addBoolProperty, internBool, Out.bind_eq_ok] at h
  obtain ⟨⟨a, d1⟩, ⟨r1, _, e1⟩, e⟩ := h
  cases e1; cases e; exact ⟨rfl, rfl⟩

theorem addBools_tags (n : Nat) : ∀ (l : List Str) (d : Dom), Ok (SameTags d) (addBools n l d)
  | [], d => Ok.ok (.rfl' d)
  | b :: l, d => by
    unfold addBools
    exact (addBoolProperty_tags n b d).bind fun d1 h1 => (addBools_tags n l d1).mono fun _ h2 => h1.trans h2

theorem addProps_tags (n : Nat) : ∀ (l : List (Str × Str)) (d : Dom), Ok (SameTags d) (addProps n l d)
  | [], d => Ok.ok (.rfl' d)
  | (k, v) :: l, d => by
    unfold addProps
    exact (addProperty_tags n k v d).bind fun d1 h1 => (addProps_tags n l d1).mono fun _ h2 => h1.trans h2

theorem buildAttrs_tags (n : Nat) : ∀ (l : List Attr) (d : Dom), Ok (SameTags d) (buildAttrs n l d)
  | [], d => Ok.ok (.rfl' d)
  | a :: l, d => by
    unfold buildAttrs
    refine Ok.bind (P := SameTags d) ?_ fun d1 h1 => (buildAttrs_tags n l d1).mono fun _ h2 => h1.trans h2
    cases a with
    | bool b => exact addBoolProperty_tags n b d
    | pair k v => exact addProperty_tags n k v d

theorem TagOK.same {d d' : Dom} (h : TagOK d) (e : SameTags d d') : TagOK d' := by
  unfold TagOK; rw [e.1, e.2]; exact h

theorem parseText_tags (t : Str) (d : Dom) : Ok (fun r => SameTags d r.2) (parseTextElement t d) := by
  unfold parseTextElement
  refine (createNode_tags _ d).bind fun ⟨id, d1⟩ h1 => ?_
  refine Ok.triv.bind fun nd _ => Ok.ok ?_
  exact h1.trans ⟨rfl, rfl⟩

theorem parseDoc_used (doc : DocNode) {d : Dom} (h : TagOK d) :
    Ok (fun r => Used d [(doc.tag, doc.isPaired)] r.2) (parseDocumentElement doc d) := by
  unfold parseDocumentElement
  refine (createNode_tags _ d).bind fun ⟨id, d1⟩ h1 => ?_
  dsimp only at h1 ⊢
  refine (setTag_used (h.same h1)).bind fun d2 h2 => ?_
  refine (addBools_tags id _ d2).bind fun d3 h3 => ?_
  refine (addProps_tags id _ d3).bind fun d4 h4 => Ok.ok ?_
  exact ((((Used.nil h).same h1).append h2).same h3).same h4

theorem buildElem_used (tag : Str) (can : Bool) (as : List Attr) {d : Dom} (h : TagOK d) :
    Ok (fun r => Used d [(tag, can)] r.2) (buildElem tag can as d) := by
  unfold buildElem
  refine (createNode_tags _ d).bind fun ⟨id, d1⟩ h1 => ?_
  dsimp only at h1 ⊢
  refine (buildAttrs_tags id as d1).bind fun d2 h2 => ?_
  refine (setTag_used ((h.same h1).same h2)).bind fun d3 h3 => Ok.ok ?_
  exact (((Used.nil h).same h1).same h2).append h3

theorem parserUpdate_tags (new prev : Nat) (stack : List (Nat × Str)) (d : Dom) :
    SameTags d (parserUpdateReferences new prev stack d) := by
  unfold parserUpdateReferences
  split
  · split
    · exact ⟨rfl, rfl⟩
    · dsimp only
      split <;> exact ⟨rfl, rfl⟩
  · exact ⟨rfl, rfl⟩

/-- The names used by a list of events. -/
def evForms : List Ev → List (Str × Bool)
  | [] => []
  | .elem tag can _ :: es => (tag, can) :: evForms es
  | _ :: es => evForms es

theorem evForms_append : ∀ (a b : List Ev), evForms (a ++ b) = evForms a ++ evForms b
  | [], b => rfl
  | .elem .. :: a, b => by simp [evForms, evForms_append a b]
  | .text _ :: a, b => by simp [evForms, evForms_append a b]
  | .close :: a, b => by simp [evForms, evForms_append a b]

theorem runEvs_used {startLen : Nat} {d : Dom} : ∀ (es : List Ev) (b : BState) (us : List (Str × Bool)), Used d us b.dom →
    Ok (fun r => if r.ok then Used d (us ++ evForms es) r.dom else ∃ vs, Used d vs r.dom) (runEvs startLen es b)
  | [], b, us, h => by
    refine Ok.ok ?_
    rw [if_pos rfl]
    simpa [evForms] using h
  | e :: es, b, us, h => by
    unfold runEvs
    cases e with
    | text raw =>
      refine Ok.bind (P := fun x => ∃ b', x = .inl b' ∧ Used d us b'.dom) ?_ ?_
      · unfold runEv
        refine (parseText_tags raw b.dom).bind fun ⟨id, d1⟩ h1 => Ok.ok ⟨_, rfl, ?_⟩
        exact (h.same h1).same (parserUpdate_tags _ _ _ _)
      · rintro x ⟨b', rfl, hb⟩
        exact runEvs_used es b' us hb
    | close =>
      refine Ok.bind (P := fun x => ∃ b', x = .inl b' ∧ Used d us b'.dom) ?_ ?_
      · simp only [runEv]
        split
        · split <;> exact Ok.ok ⟨_, rfl, h⟩
        · exact Ok.ok ⟨_, rfl, h⟩
      · rintro x ⟨b', rfl, hb⟩
        exact runEvs_used es b' us hb
    | elem tag can as =>
      refine Ok.bind (P := fun x => match x with | .inl b' => Used d (us ++ [(tag, can)]) b'.dom | .inr d' => Used d (us ++ [(tag, can)]) d') ?_ ?_
      · unfold runEv
        refine (buildElem_used tag can as h.1).bind fun ⟨id, d1⟩ h1 => ?_
        have h2 := (h.append h1).same (parserUpdate_tags id b.prev b.stack d1)
        dsimp only at h1 h2 ⊢
        split
        · split <;> exact Ok.ok h2
        · exact Ok.ok h2
      · intro x hx
        cases x with
        | inl b' =>
          have := runEvs_used (startLen := startLen) es b' _ hx
          simp only [List.append_assoc, List.singleton_append] at this
          exact this
        | inr d' =>
          refine Ok.ok ?_
          rw [if_neg (by simp)]
          exact ⟨_, hx⟩

mutual
theorem src_evForms : ∀ (t : Src), t.Clean → evForms t.evs = t.forms
  | .text first more, _ => rfl
  | .single tag as gap slash, hc => by
    simp only [Src.evs, evForms, Src.forms, canS_false hc.2.2.2.2]
  | .paired tag as gap lead ks gap', hc => by
    simp only [Src.evs, evForms, Src.forms, evForms_append, srcs_evForms ks hc.2.2.2.2.2.1, List.append_nil]
theorem srcs_evForms : ∀ (ks : Srcs), ks.Clean → evForms ks.evs = ks.forms
  | .nil, _ => rfl
  | .cons t b rest, hc => by
    simp only [Srcs.evs, Srcs.forms, evForms_append, src_evForms t hc.1, srcs_evForms rest hc.2.2.1]
end

theorem TagOK.init : TagOK Dom.init := MapOK.empty

theorem createDom_used {lead : Str} {ks : Srcs} (hl : Blank lead) (hk : ks.Clean) {d : Dom}
    (h : createDom (lead ++ ks.render) = .ok (some d)) : Used Dom.init ks.forms d := by
  simp only [createDom, Out.bind_eq_ok] at h
  obtain ⟨r, h1, h2⟩ := h
  have hlex := lex_doc (s := lead ++ ks.render) hl hk rfl (rootBase_ok _)
  rw [parseRoot_lex hlex] at h1
  have := runEvs_used (d := Dom.init) ks.evs ⟨Dom.init, [(1, [])], 1⟩ [] (Used.nil .init) r h1
  split at h2
  · rename_i hok
    cases h2
    dsimp only at this
    rw [if_pos hok, srcs_evForms ks hk] at this
    exact this
  · cases h2

theorem parseExtra_used {lead : Str} {ks : Srcs} (hl : Blank lead) (hk : ks.Clean) (hd : ks.depth ≤ 256) {junk : Nat → Out Bool}
    {d : Dom} (ht : TagOK d) : Ok (fun r => Used d ks.forms r.dom) (parseExtra junk (lead ++ ks.render) d) := by
  intro r hr
  have hlex := lex_doc (s := lead ++ ks.render) hl hk rfl (fragBase_ok junk _)
  have hok : r.ok = true := by
    rcases parseExtra_src hl hk hd junk d with h | ⟨d', h⟩
    · rw [h] at hr; cases hr
    · rw [h] at hr; cases hr; rfl
  rw [parseExtra_lex hlex] at hr
  have := runEvs_used (d := d) ks.evs ⟨d, [], 0⟩ [] (Used.nil ht) r hr
  dsimp only at this
  rw [if_pos hok, srcs_evForms ks hk] at this
  exact this

/-- Any fragment, accepted or not. -/
theorem parseExtra_used_any {junk : Nat → Out Bool} (hj : Reads junk) (s : Str) {d : Dom} (ht : TagOK d) :
    Ok (fun r => ∃ us, Used d us r.dom) (parseExtra junk s d) := by
  intro r hr
  have := (parse_trace (E := fun _ => True) (junk := junk) (s := s) (d := d) (prev := 0) (stack := [])
    (fun _ i => by obtain ⟨b, e⟩ := hj i; rw [e]; trivial) (fun _ _ => trivial)).elim hr
  obtain ⟨evs, _, e⟩ := this
  have := runEvs_used (d := d) evs ⟨d, [], 0⟩ [] (Used.nil ht) r e
  dsimp only at this
  split at this
  · exact ⟨_, this⟩
  · exact this

theorem sameRoom_tags {a b : Dom} (h : SameRoom a b) : SameTags a b := ⟨h.tag, congrArg (·.1) h.reg⟩

theorem Used.closed {d : Dom} {us : List (Str × Bool)} : ∀ a b, SameRoom a b → Used d us a → Used d us b :=
  fun _ _ h hu => hu.same (sameRoom_tags h)

theorem Used.closed' {d : Dom} : ∀ a b, SameRoom a b → (∃ us, Used d us a) → ∃ us, Used d us b :=
  fun _ _ h ⟨us, hu⟩ => ⟨us, hu.same (sameRoom_tags h)⟩

theorem runAttr_tags (op : AttrOp) (d : Dom) : Ok (SameTags d) (runAttr op d) := by
  cases op with
  | add n k v => exact addProperty_tags n k v d
  | addBool n b => exact addBoolProperty_tags n b d
  | set n k v =>
    unfold runAttr
    refine Ok.bind (P := fun r => SameTags d r.2) ?_ (fun ⟨_, d1⟩ h1 => Ok.ok h1)
    unfold setPropertyValue
    dsimp only
    split
    · exact Ok.ok (.rfl' d)
    · split
      · exact Ok.ok (.rfl' d)
      · refine Ok.bind (P := fun r => SameTags d r.2) ?_ (fun ⟨_, d1⟩ h1 => Ok.ok h1)
        unfold internVal
        exact Ok.triv.bind fun _ _ => Ok.ok ⟨rfl, rfl⟩
  | remove n k =>
    refine Ok.ok ?_
    unfold removeProperty
    dsimp only
    split
    · split <;> exact ⟨rfl, rfl⟩
    · exact ⟨rfl, rfl⟩
  | removeBool n b =>
    refine Ok.ok ?_
    unfold removeBoolProperty
    dsimp only
    split
    · split <;> exact ⟨rfl, rfl⟩
    · exact ⟨rfl, rfl⟩

theorem NJ.ok' {α : Type} {P : α → Prop} {x : Out α} (h : NJ P x) : Ok P x := fun _ e => h.elim e

/-- The registry after an operation. -/
theorem runOp_used {junk : Nat → Out Bool} {op : Op} {us : List (Str × Bool)} (hu : OpUses op us) {d : Dom} (ht : TagOK d) :
    Ok (Used d us) (runOp junk op d) := by
  have hn := Used.nil ht
  have htext : ∀ t, Ok (fun r => Used d [] r.2) (parseTextElement t d) :=
    fun t => (parseText_tags t d).mono fun _ h => hn.same h
  cases hu with
  | attr => exact (runAttr_tags _ d).mono fun _ h => hn.same h
  | addText => exact (addTextToTextNode_nj _ _ _ d).ok'.mono fun _ h => hn.same (sameRoom_tags h)
  | setTag => exact setTag_used ht
  | setText =>
    refine setTextContent_fin Used.closed _ _ fun d1 h1 => ?_
    exact (parseText_tags _ d1).mono fun _ h => (hn.same (sameRoom_tags h1)).same h
  | removeNode => exact (removeNode_nj _ d).ok'.mono fun _ h => hn.same (sameRoom_tags h)
  | removeChildren => exact (removeChildren_nj _ d).ok'.mono fun _ h => hn.same (sameRoom_tags h)
  | appendDoc => exact (appendDocumentNode_fin Used.closed _ _ (parseDoc_used _ ht)).drop fun _ h => h
  | prependDoc => exact (prependDocumentNode_fin Used.closed _ _ (parseDoc_used _ ht)).drop fun _ h => h
  | replaceDoc => exact (replaceWithDocumentNode_fin Used.closed _ _ (parseDoc_used _ ht)).drop fun _ h => h
  | appendText => exact (appendTextNode_fin Used.closed _ _ (htext _)).drop fun _ h => h
  | prependText => exact (prependTextNode_fin Used.closed _ _ (htext _)).drop fun _ h => h
  | replaceText => exact (replaceWithTextNode_fin Used.closed _ _ (htext _)).drop fun _ h => h
  | appendHTML hl hk hd => exact (appendHTML_fin Used.closed _ _ (parseExtra_used hl hk hd ht)).drop fun _ h => h
  | prependHTML hl hk hd => exact (prependHTML_fin Used.closed _ _ (parseExtra_used hl hk hd ht)).drop fun _ h => h
  | replaceHTML hl hk hd => exact (replaceWithHTML_fin Used.closed _ _ (parseExtra_used hl hk hd ht)).drop fun _ h => h

/-- The same without knowing which names a fragment uses. -/
theorem runOp_used_any {junk : Nat → Out Bool} (hj : Reads junk) (op : Op) {d : Dom} (ht : TagOK d) :
    Ok (fun d' => ∃ us, Used d us d') (runOp junk op d) := by
  cases op with
  | attr op => exact (runOp_used .attr ht).mono fun _ h => ⟨_, h⟩
  | addText n t a => exact (runOp_used .addText ht).mono fun _ h => ⟨_, h⟩
  | setTag t n p => exact (runOp_used .setTag ht).mono fun _ h => ⟨_, h⟩
  | setText n t => exact (runOp_used .setText ht).mono fun _ h => ⟨_, h⟩
  | removeNode n => exact (runOp_used .removeNode ht).mono fun _ h => ⟨_, h⟩
  | removeChildren n => exact (runOp_used .removeChildren ht).mono fun _ h => ⟨_, h⟩
  | appendDoc p doc => exact (runOp_used .appendDoc ht).mono fun _ h => ⟨_, h⟩
  | appendText p t => exact (runOp_used .appendText ht).mono fun _ h => ⟨_, h⟩
  | prependDoc p doc => exact (runOp_used .prependDoc ht).mono fun _ h => ⟨_, h⟩
  | prependText p t => exact (runOp_used .prependText ht).mono fun _ h => ⟨_, h⟩
  | replaceDoc n doc => exact (runOp_used .replaceDoc ht).mono fun _ h => ⟨_, h⟩
  | replaceText n t => exact (runOp_used .replaceText ht).mono fun _ h => ⟨_, h⟩
  | appendHTML p h => exact (appendHTML_fin Used.closed' _ _ (parseExtra_used_any hj h ht)).drop fun _ h => h
  | prependHTML p h => exact (prependHTML_fin Used.closed' _ _ (parseExtra_used_any hj h ht)).drop fun _ h => h
  | replaceHTML p h => exact (replaceWithHTML_fin Used.closed' _ _ (parseExtra_used_any hj h ht)).drop fun _ h => h

end Flo
