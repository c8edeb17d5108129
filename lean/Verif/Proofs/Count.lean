import Verif.Proofs.History
/-!
# Counting rows: every row of the first-child and the next-sibling table is paid for by a node
-/
namespace Flo
open Spec

/-- Partial correctness. -/
def Ok {α : Type} (P : α → Prop) (x : Out α) : Prop := ∀ a, x = .ok a → P a

theorem Ok.ok {α : Type} {P : α → Prop} {a : α} (h : P a) : Ok P (.ok a) := by
  intro b e; cases e; exact h

theorem Ok.stop {α : Type} {P : α → Prop} {x : Out α} (h : ∀ a, x ≠ .ok a) : Ok P x := fun a e => absurd e (h a)

theorem Ok.ub {α : Type} {P : α → Prop} {w : Why} : Ok P (.ub w) := fun _ e => by cases e
theorem Ok.hang {α : Type} {P : α → Prop} : Ok P (.hang) := fun _ e => by cases e
theorem Ok.longjmp {α : Type} {P : α → Prop} : Ok P (.longjmp) := fun _ e => by cases e

theorem Ok.bind {α β : Type} {P : α → Prop} {Q : β → Prop} {x : Out α} {f : α → Out β} (h : Ok P x)
    (hf : ∀ a, P a → Ok Q (f a)) : Ok Q (x >>= f) := by
  cases x with
  | ok a => exact hf a (h a rfl)
  | longjmp => exact Ok.longjmp
  | ub w => exact Ok.ub
  | hang => exact Ok.hang

theorem Ok.mono {α : Type} {P Q : α → Prop} {x : Out α} (h : Ok P x) (hPQ : ∀ a, P a → Q a) : Ok Q x :=
  fun a e => hPQ a (h a e)

theorem Ok.triv {α : Type} {x : Out α} : Ok (fun _ => True) x := fun _ _ => trivial

/-- Nodes and rows after an operation. -/
structure Delta (d d' : Dom) (k m : Nat) : Prop where
  nodes : d'.nodes.length = d.nodes.length + k
  rows : d'.fc.length + d'.nn.length = d.fc.length + d.nn.length + m

theorem Delta.refl (d : Dom) : Delta d d 0 0 := ⟨rfl, rfl⟩

theorem Delta.trans {a b c : Dom} {k k' m m' : Nat} (h : Delta a b k m) (h' : Delta b c k' m') :
    Delta a c (k + k') (m + m') := ⟨by rw [h'.nodes, h.nodes]; omega, by rw [h'.rows, h.rows]; omega⟩

theorem Delta.same {d d' : Dom} (hn : d'.nodes.length = d.nodes.length) (hf : d'.fc.length = d.fc.length)
    (hx : d'.nn.length = d.nn.length) : Delta d d' 0 0 := ⟨hn, by rw [hf, hx]; rfl⟩

theorem Delta.same_trans {a b c : Dom} {k m : Nat} (h : Delta a b k m) (h' : Delta b c 0 0) : Delta a c k m := h.trans h'

/-! ## Names and attributes -/

theorem internKey_count (s : Str) (d : Dom) : Ok (fun r => Delta d r.2 0 0) (internKey s d) := by
  unfold internKey
  exact Ok.triv.bind fun r _ => Ok.ok ⟨rfl, rfl⟩

theorem internVal_count (s : Str) (d : Dom) : Ok (fun r => Delta d r.2 0 0) (internVal s d) := by
  unfold internVal
  exact Ok.triv.bind fun r _ => Ok.ok ⟨rfl, rfl⟩

theorem internBool_count (s : Str) (d : Dom) : Ok (fun r => Delta d r.2 0 0) (internBool s d) := by
  unfold internBool
  exact Ok.triv.bind fun r _ => Ok.ok ⟨rfl, rfl⟩

theorem addProperty_count (n : Nat) (k v : Str) (d : Dom) : Ok (fun d' => Delta d d' 0 0) (addProperty n k v d) := by
  unfold addProperty
  refine (internKey_count k d).bind fun r h => ?_
  refine (internVal_count v r.2).bind fun r' h' => Ok.ok ?_
  exact ⟨(h.trans h').nodes, (h.trans h').rows⟩

theorem addBoolProperty_count (n : Nat) (b : Str) (d : Dom) : Ok (fun d' => Delta d d' 0 0) (addBoolProperty n b d) := by
  unfold addBoolProperty
  exact (internBool_count b d).bind fun r h => Ok.ok ⟨h.nodes, h.rows⟩

theorem setPropertyValue_count (n : Nat) (k v : Str) (d : Dom) :
    Ok (fun r => Delta d r.2 0 0) (setPropertyValue n k v d) := by
  unfold setPropertyValue
  dsimp only
  split
  · exact Ok.ok (Delta.refl d)
  · split
    · exact Ok.ok (Delta.refl d)
    · exact (internVal_count v d).bind fun r h => Ok.ok ⟨h.nodes, h.rows⟩

theorem removeProperty_count (n : Nat) (k : Str) (d : Dom) : Delta d (removeProperty n k d) 0 0 := by
  unfold removeProperty
  dsimp only
  split
  · split
    · exact ⟨rfl, rfl⟩
    · exact Delta.refl d
  · exact Delta.refl d

theorem removeBoolProperty_count (n : Nat) (k : Str) (d : Dom) : Delta d (removeBoolProperty n k d) 0 0 := by
  unfold removeBoolProperty
  dsimp only
  split
  · split
    · exact ⟨rfl, rfl⟩
    · exact Delta.refl d
  · exact Delta.refl d

theorem setTag_count (t : Str) (n : Nat) (p : Bool) (d : Dom) : Ok (fun d' => Delta d d' 0 0) (setTag t n p d) := by
  unfold setTag
  refine Ok.triv.bind fun r _ => ?_
  refine Ok.triv.bind fun nd _ => Ok.ok ?_
  exact Delta.same (by simp [Dom.setNode]) rfl rfl

theorem addText_count (n : Nat) (t : Str) (a : Bool) (d : Dom) :
    Ok (fun d' => Delta d d' 0 0) (addTextToTextNode n t a d) := by
  unfold addTextToTextNode
  refine Ok.triv.bind fun r _ => ?_
  refine Ok.triv.bind fun nd _ => Ok.ok ?_
  exact Delta.same (by simp [Dom.setNode]) rfl rfl

theorem tryMerge_count (a b : Nat) (app : Bool) (d : Dom) : Ok (fun r => Delta d r.2 0 0) (tryMerge a b app d) := by
  unfold tryMerge
  refine Ok.triv.bind fun r _ => ?_
  split
  · refine Ok.triv.bind fun _ _ => ?_
    refine Ok.triv.bind fun t _ => ?_
    exact (addText_count a t app d).bind fun d' h => Ok.ok h
  · exact Ok.ok (Delta.refl d)

theorem createNode_count (t : NodeType) (d : Dom) : Ok (fun r => r.1 = d.nodes.length ∧ Delta d r.2 1 0) (createNode t d) := by
  unfold createNode
  split
  · exact Ok.longjmp
  · exact Ok.ok ⟨rfl, by simp, rfl⟩

theorem parseText_count (t : Str) (d : Dom) :
    Ok (fun r => r.1 = d.nodes.length ∧ Delta d r.2 1 0) (parseTextElement t d) := by
  unfold parseTextElement
  refine (createNode_count .text d).bind fun r h => ?_
  refine Ok.triv.bind fun nd _ => Ok.ok ⟨h.1, h.2.same_trans ?_⟩
  exact Delta.same (by simp [Dom.setNode]) rfl rfl

theorem addBools_count (n : Nat) : ∀ (l : List Str) (d : Dom), Ok (fun d' => Delta d d' 0 0) (addBools n l d)
  | [], d => Ok.ok (Delta.refl d)
  | b :: bs, d => by
    unfold addBools
    exact (addBoolProperty_count n b d).bind fun d1 h => (addBools_count n bs d1).mono fun d2 h' => h.trans h'

theorem addProps_count (n : Nat) : ∀ (l : List (Str × Str)) (d : Dom), Ok (fun d' => Delta d d' 0 0) (addProps n l d)
  | [], d => Ok.ok (Delta.refl d)
  | (k, v) :: bs, d => by
    unfold addProps
    exact (addProperty_count n k v d).bind fun d1 h => (addProps_count n bs d1).mono fun d2 h' => h.trans h'

theorem parseDoc_count (doc : DocNode) (d : Dom) :
    Ok (fun r => r.1 = d.nodes.length ∧ Delta d r.2 1 0) (parseDocumentElement doc d) := by
  unfold parseDocumentElement
  refine (createNode_count .document d).bind fun r h => ?_
  refine (setTag_count _ _ _ _).bind fun d1 h1 => ?_
  refine (addBools_count _ _ _).bind fun d2 h2 => ?_
  exact (addProps_count _ _ _).bind fun d3 h3 => Ok.ok ⟨h.1, ((h.2.same_trans h1).same_trans h2).same_trans h3⟩

/-! ## The parser -/

theorem buildAttrs_count (n : Nat) : ∀ (l : List Attr) (d : Dom), Ok (fun d' => Delta d d' 0 0) (buildAttrs n l d)
  | [], d => Ok.ok (Delta.refl d)
  | a :: as, d => by
    unfold buildAttrs
    have ha : Ok (fun d' => Delta d d' 0 0) (buildAttr n a d) := by
      cases a with
      | bool b => exact addBoolProperty_count n b d
      | pair k v => exact addProperty_count n k v d
    exact ha.bind fun d1 h => (buildAttrs_count n as d1).mono fun d2 h' => h.trans h'

theorem buildElem_count (t : Str) (can : Bool) (as : List Attr) (d : Dom) :
    Ok (fun r => r.1 = d.nodes.length ∧ Delta d r.2 1 0) (buildElem t can as d) := by
  unfold buildElem
  refine (createNode_count .document d).bind fun r h => ?_
  refine (buildAttrs_count _ _ _).bind fun d1 h1 => ?_
  exact (setTag_count _ _ _ _).bind fun d2 h2 => Ok.ok ⟨h.1, (h.2.same_trans h1).same_trans h2⟩

theorem parserUpdate_count (new prev : Nat) (stack : List (Nat × Str)) (d : Dom) :
    ∃ m, Delta d (parserUpdateReferences new prev stack d) 0 m ∧ m ≤ 1 ∧ (prev = 0 → m = 0) := by
  unfold parserUpdateReferences
  split
  · rename_i hp
    cases stack with
    | nil => exact ⟨1, ⟨rfl, by simp; omega⟩, by omega, by omega⟩
    | cons e l =>
      dsimp only
      split
      · exact ⟨1, ⟨rfl, by simp; omega⟩, by omega, by omega⟩
      · exact ⟨1, ⟨rfl, by simp; omega⟩, by omega, by omega⟩
  · exact ⟨0, Delta.refl d, by omega, by omega⟩

/-- What the builder maintains; `slack` is 1 for fragments, whose first node gets no row. -/
def CountOK (d0 : Dom) (slack : Nat) (stack : List (Nat × Str)) (prev : Nat) (d : Dom) : Prop :=
  (stack = [] ∧ prev = 0 ∧ ∃ k, d = d0 ∧ k = slack) ∨
  ∃ k m, Delta d0 d k m ∧ m + slack ≤ k

/-- Rows made by a parse. -/
def ParseCount (d0 d : Dom) (slack : Nat) : Prop := d = d0 ∨ ∃ k m, Delta d0 d k m ∧ m + slack ≤ k

theorem runEv_count {d0 : Dom} {startLen : Nat} {b : BState} {slack : Nat} (h : CountOK d0 slack b.stack b.prev b.dom)
    (hs : slack ≤ 1) (e : Ev) : Ok (fun r => match r with
      | .inl b' => CountOK d0 slack b'.stack b'.prev b'.dom
      | .inr d => ParseCount d0 d slack) (runEv startLen b e) := by
  have key : ∀ (id : Nat) (d : Dom), Delta b.dom d 1 0 →
      ∃ k m, Delta d0 (parserUpdateReferences id b.prev b.stack d) k m ∧ m + slack ≤ k := by
    intro id d hd
    obtain ⟨m, h1, h2, h3⟩ := parserUpdate_count id b.prev b.stack d
    rcases h with ⟨_, hp, _, e, _⟩ | ⟨k, m', h4, h5⟩
    · have := h3 hp
      subst this
      rw [e] at hd
      exact ⟨_, _, hd.trans h1, by omega⟩
    · exact ⟨_, _, (h4.trans hd).trans h1, by omega⟩
  cases e with
  | text raw =>
    unfold runEv
    exact (parseText_count raw b.dom).bind fun r hr => Ok.ok (Or.inr (key r.1 r.2 hr.2))
  | elem tag can attrs =>
    unfold runEv
    refine (buildElem_count tag can attrs b.dom).bind fun r hr => ?_
    have := key r.1 r.2 hr.2
    dsimp only
    split
    · split
      · exact Ok.ok (Or.inr this)
      · exact Ok.ok (Or.inr this)
    · exact Ok.ok (Or.inr this)
  | close =>
    unfold runEv
    cases hs : b.stack with
    | nil => exact Ok.ok (by dsimp only; exact h)
    | cons e l =>
      dsimp only
      have h' : ∃ k m, Delta d0 b.dom k m ∧ m + slack ≤ k := by
        rcases h with ⟨hx, _⟩ | h
        · rw [hs] at hx; cases hx
        · exact h
      split
      · exact Ok.ok (Or.inr h')
      · exact Ok.ok (Or.inr h')

theorem runEvs_count {d0 : Dom} {startLen slack : Nat} (hs : slack ≤ 1) : ∀ (es : List Ev) (b : BState),
    CountOK d0 slack b.stack b.prev b.dom → Ok (fun r => ParseCount d0 r.dom slack) (runEvs startLen es b)
  | [], b, h => Ok.ok (by
      rcases h with ⟨_, _, _, e, _⟩ | h
      · exact Or.inl e
      · exact Or.inr h)
  | e :: es, b, h => by
    unfold runEvs
    refine (runEv_count h hs e).bind fun r hr => ?_
    cases r with
    | inl b' => exact runEvs_count hs es b' hr
    | inr d => exact Ok.ok hr

theorem parse_count {junk : Nat → Out Bool} {s : Str} {d : Dom} {prev slack : Nat} {stack : List (Nat × Str)}
    (hj : stack = [] → ∀ i, junk i ≠ .hang) (hs : slack ≤ 1) (h : CountOK d slack stack prev d) :
    Ok (fun r => ParseCount d r.dom slack) (parse junk s d prev stack) := by
  intro r hr
  have := (parse_trace (E := fun _ => True) (junk := junk) (s := s) (d := d) (prev := prev) (stack := stack)
    (fun hx i => by
      have := hj hx i
      cases hji : junk i with
      | ok b => trivial
      | ub w => trivial
      | longjmp => trivial
      | hang => exact absurd hji this) (fun _ _ => trivial)).elim hr
  obtain ⟨evs, _, e⟩ := this
  exact runEvs_count hs evs ⟨d, stack, prev⟩ h r e

theorem parseExtra_count {junk : Nat → Out Bool} (hj : Reads junk) (s : Str) (d : Dom) :
    Ok (fun r => ParseCount d r.dom 1) (parseExtra junk s d) :=
  parse_count (fun _ i => by obtain ⟨b, e⟩ := hj i; rw [e]; simp) (by omega) (Or.inl ⟨rfl, rfl, 1, rfl, rfl⟩)

/-! ## Edits -/

theorem unlinkPrev_length (n : Nat) (d : Dom) : (unlinkPrev n d).length = d.nn.length := by
  unfold unlinkPrev
  split
  · rfl
  · split <;> simp

theorem unlinkNode_count (n : Nat) (d : Dom) : Ok (fun d' => Delta d d' 0 0) (unlinkNode n d) := by
  unfold unlinkNode
  split
  · exact Ok.ub
  · have : Ok (fun r => r.1.length = d.fc.length) (unlinkParent n d) := by
      unfold unlinkParent
      split
      · exact Ok.ok rfl
      · dsimp only
        split
        · exact Ok.ub
        · split
          · split
            · exact Ok.ok (by simp)
            · exact Ok.ok (by simp)
          · exact Ok.ok rfl
    refine this.bind fun r hr => Ok.ok ?_
    refine Delta.same (by simp) hr ?_
    show (unlinkNext n d).length = _
    unfold unlinkNext
    split
    · exact unlinkPrev_length n d
    · simp [unlinkPrev_length]

theorem removeLoop_count {rm : Nat → Dom → Out Dom} (hrm : ∀ n d, Ok (fun d' => Delta d d' 0 0) (rm n d)) (n : Nat) :
    ∀ (k : Nat) (d : Dom), Ok (fun d' => Delta d d' 0 0) (removeChildrenLoop rm n k d)
  | 0, _ => Ok.hang
  | k + 1, d => by
    unfold removeChildrenLoop
    dsimp only
    split
    · exact (hrm _ d).bind fun d1 h => (removeLoop_count hrm n k d1).mono fun d2 h' => h.trans h'
    · exact Ok.ok (Delta.refl d)

theorem removeNodeF_count : ∀ (f n : Nat) (d : Dom), Ok (fun d' => Delta d d' 0 0) (removeNodeF f n d)
  | 0, _, _ => Ok.hang
  | f + 1, n, d => by
    unfold removeNodeF
    exact (removeLoop_count (removeNodeF_count f) n _ d).bind fun d1 h =>
      (unlinkNode_count n d1).mono fun d2 h' => h.trans h'

theorem removeNode_count (n : Nat) (d : Dom) : Ok (fun d' => Delta d d' 0 0) (removeNode n d) := removeNodeF_count _ n d

theorem removeChildren_count (n : Nat) (d : Dom) : Ok (fun d' => Delta d d' 0 0) (removeChildren n d) :=
  removeLoop_count (removeNodeF_count _) n _ d

theorem setText_count (n : Nat) (t : Str) (d : Dom) : Ok (fun d' => Delta d d' 1 1) (setTextContent n t d) := by
  unfold setTextContent
  refine (removeChildren_count n d).bind fun d1 h1 => ?_
  refine (parseText_count t d1).bind fun r h2 => Ok.ok ?_
  have := h1.trans h2.2
  exact ⟨this.nodes, by have := this.rows; simp at this ⊢; omega⟩

theorem connectLoop_count (p : Nat) : ∀ (f o : Nat) (d : Dom), Ok (fun d' => Delta d d' 0 0) (connectLoop p f o d)
  | 0, _, _ => Ok.hang
  | f + 1, o, d => by
    unfold connectLoop
    split
    · exact (connectLoop_count p f _ _).mono fun d' h => ⟨h.nodes, h.rows⟩
    · exact Ok.ok (Delta.refl d)

theorem appendUpdate_count (p n : Nat) (d : Dom) : Ok (fun d' => Delta d d' 0 1) (appendUpdateReferences p n d) := by
  unfold appendUpdateReferences
  split
  · exact (connectLoop_count _ _ _ _).mono fun d' h => ⟨h.nodes, by have := h.rows; simp at this; omega⟩
  · refine Ok.triv.bind fun l _ => ?_
    exact (connectLoop_count _ _ _ _).mono fun d' h => ⟨h.nodes, by have := h.rows; simp at this; omega⟩

theorem prependUpdate_count (p n : Nat) (d : Dom) : Ok (fun d' => Delta d d' 0 1) (prependUpdateReferences p n d) := by
  unfold prependUpdateReferences
  split
  · exact (connectLoop_count _ _ _ _).mono fun d' h => ⟨h.nodes, by have := h.rows; simp at this; omega⟩
  · dsimp only
    refine Ok.triv.bind fun l _ => ?_
    exact (connectLoop_count _ _ _ _).mono fun d' h => ⟨h.nodes, by have := h.rows; simp at this; omega⟩

theorem replaceConnect_count (i : Nat) : ∀ (f o : Nat) (d : Dom), Ok (fun d' => Delta d d' 0 0) (replaceConnectLoop i f o d)
  | 0, _, _ => Ok.hang
  | f + 1, o, d => by
    unfold replaceConnectLoop
    split
    · exact (replaceConnect_count i f _ _).mono fun d' h => ⟨h.nodes, h.rows⟩
    · exact Ok.ok (Delta.refl d)

theorem replaceUpdate_count (o n : Nat) (d : Dom) : Ok (fun d' => Delta d d' 0 0) (replaceUpdateReferences o n d) := by
  unfold replaceUpdateReferences
  refine Ok.triv.bind fun nd _ => ?_
  refine Ok.triv.bind fun l _ => ?_
  dsimp only
  have h1 : Delta d { d with nn := replacePrev o n d, fc := replaceFirst o n d } 0 0 := by
    refine Delta.same rfl ?_ ?_
    · show (replaceFirst o n d).length = _
      unfold replaceFirst
      split
      · rfl
      · split
        · rfl
        · split
          · simp
          · rfl
    · show (replacePrev o n d).length = _
      unfold replacePrev
      split <;> simp
  have h2 : ∀ d1 : Dom, Ok (fun d' => Delta d1 d' 0 0) (replaceParent o n d1) := by
    intro d1
    unfold replaceParent
    split
    · exact Ok.ok (Delta.refl d1)
    · exact (replaceConnect_count _ _ _ _).mono fun d' h => ⟨h.nodes, h.rows⟩
  refine (h2 _).bind fun d2 h2 => Ok.ok ?_
  refine (h1.trans h2).same_trans (Delta.same (by simp) rfl ?_)
  show (replaceNext _ _ _).length = _
  unfold replaceNext
  split <;> simp

/-- An edit makes at most as many rows as nodes. -/
def Paid (d d' : Dom) : Prop := ∃ k m, Delta d d' k m ∧ m ≤ k

theorem Delta.paid {d d' : Dom} {k m : Nat} (h : Delta d d' k m) (hm : m ≤ k) : Paid d d' := ⟨k, m, h, hm⟩

theorem Ok.drop {P : Nat × Dom → Prop} {Q : Dom → Prop} {x : Out (Nat × Dom)} (h : Ok P x) (hPQ : ∀ r, P r → Q r.2) :
    Ok Q (dropValue x) := by
  unfold dropValue
  exact h.bind fun r hr => Ok.ok (hPQ r hr)

theorem appendDoc_count (p : Nat) (doc : DocNode) (d : Dom) : Ok (fun r => Paid d r.2) (appendDocumentNode p doc d) := by
  unfold appendDocumentNode
  refine (parseDoc_count doc d).bind fun ⟨rid, rd⟩ h => ?_
  dsimp only at h ⊢
  split
  · exact Ok.ok (h.2.paid (by omega))
  · exact (appendUpdate_count _ _ _).bind fun d' h' => Ok.ok ((h.2.trans h').paid (by omega))

theorem prependDoc_count (p : Nat) (doc : DocNode) (d : Dom) : Ok (fun r => Paid d r.2) (prependDocumentNode p doc d) := by
  unfold prependDocumentNode
  refine (parseDoc_count doc d).bind fun ⟨rid, rd⟩ h => ?_
  dsimp only at h ⊢
  split
  · exact Ok.ok (h.2.paid (by omega))
  · exact (prependUpdate_count _ _ _).bind fun d' h' => Ok.ok ((h.2.trans h').paid (by omega))

theorem replaceDoc_count (o : Nat) (doc : DocNode) (d : Dom) : Ok (fun r => Paid d r.2) (replaceWithDocumentNode o doc d) := by
  unfold replaceWithDocumentNode
  refine (parseDoc_count doc d).bind fun ⟨rid, rd⟩ h => ?_
  dsimp only at h ⊢
  split
  · exact Ok.ok (h.2.paid (by omega))
  · exact (replaceUpdate_count _ _ _).bind fun d' h' => Ok.ok ((h.2.trans h').paid (by omega))

theorem appendText_count (p : Nat) (t : Str) (d : Dom) : Ok (fun r => Paid d r.2) (appendTextNode p t d) := by
  unfold appendTextNode
  refine (parseText_count t d).bind fun ⟨rid, rd⟩ h => ?_
  dsimp only at h ⊢
  split
  · exact Ok.ok (h.2.paid (by omega))
  · split
    · refine Ok.triv.bind fun c _ => ?_
      refine (tryMerge_count _ _ _ _).bind fun ⟨mb, md⟩ hm => ?_
      dsimp only at hm ⊢
      split
      · exact (removeNode_count _ _).bind fun d' h' => Ok.ok (((h.2.trans hm).trans h').paid (by omega))
      · exact (appendUpdate_count _ _ _).bind fun d' h' => Ok.ok (((h.2.trans hm).trans h').paid (by omega))
    · exact (appendUpdate_count _ _ _).bind fun d' h' => Ok.ok ((h.2.trans h').paid (by omega))

theorem prependText_count (p : Nat) (t : Str) (d : Dom) : Ok (fun r => Paid d r.2) (prependTextNode p t d) := by
  unfold prependTextNode
  refine (parseText_count t d).bind fun ⟨rid, rd⟩ h => ?_
  dsimp only at h ⊢
  split
  · exact Ok.ok (h.2.paid (by omega))
  · split
    · refine (tryMerge_count _ _ _ _).bind fun ⟨mb, md⟩ hm => ?_
      dsimp only at hm ⊢
      split
      · exact (removeNode_count _ _).bind fun d' h' => Ok.ok (((h.2.trans hm).trans h').paid (by omega))
      · exact (prependUpdate_count _ _ _).bind fun d' h' => Ok.ok (((h.2.trans hm).trans h').paid (by omega))
    · exact (prependUpdate_count _ _ _).bind fun d' h' => Ok.ok ((h.2.trans h').paid (by omega))

theorem tryMergePrev_count (o n : Nat) (d : Dom) : Ok (fun r => Delta d r.2 0 0) (tryMergePrev o n d) := by
  unfold tryMergePrev
  split
  · exact tryMerge_count _ _ _ _
  · exact Ok.ok (Delta.refl d)

theorem tryMergeNext_count (o n : Nat) (d : Dom) : Ok (fun r => Delta d r.2 0 0) (tryMergeNext o n d) := by
  unfold tryMergeNext
  split
  · exact tryMerge_count _ _ _ _
  · exact Ok.ok (Delta.refl d)

theorem tryMergeBoth_count (o n : Nat) (d : Dom) : Ok (fun r => Delta d r.2 0 0) (tryMergeBothSides o n d) := by
  unfold tryMergeBothSides
  refine Ok.triv.bind fun nd _ => ?_
  split
  · refine (tryMergePrev_count _ _ _).bind fun ⟨mb, md⟩ h => ?_
    dsimp only at h ⊢
    split
    · exact Ok.ok h
    · exact (tryMergeNext_count _ _ _).mono fun r' h' => h.trans h'
  · exact Ok.ok (Delta.refl d)

theorem replaceText_count (o : Nat) (t : Str) (d : Dom) : Ok (fun r => Paid d r.2) (replaceWithTextNode o t d) := by
  unfold replaceWithTextNode
  refine (parseText_count t d).bind fun ⟨rid, rd⟩ h => ?_
  dsimp only at h ⊢
  split
  · exact Ok.ok (h.2.paid (by omega))
  · refine (tryMergeBoth_count _ _ _).bind fun ⟨mb, md⟩ hm => ?_
    dsimp only at hm ⊢
    split
    · refine (removeNode_count _ _).bind fun d1 h1 => ?_
      exact (removeNode_count _ _).bind fun d2 h2 => Ok.ok ((((h.2.trans hm).trans h1).trans h2).paid (by omega))
    · exact (replaceUpdate_count _ _ _).bind fun d' h' => Ok.ok (((h.2.trans hm).trans h').paid (by omega))

/-- A parsed fragment with at least one node has paid for one more row. -/
def Spare (d d1 : Dom) : Prop := ∃ k m, Delta d d1 k m ∧ m + 1 ≤ k

theorem Spare.same {a b c : Dom} (h : Spare a b) (h' : Delta b c 0 0) : Spare a c := by
  obtain ⟨k, m, h1, h2⟩ := h
  exact ⟨k, m, h1.trans h', h2⟩

theorem Spare.paid {a b : Dom} (h : Spare a b) : Paid a b := by
  obtain ⟨k, m, h1, h2⟩ := h
  exact ⟨k, m, h1, by omega⟩

theorem Spare.one {a b c : Dom} (h : Spare a b) (h' : Delta b c 0 1) : Paid a c := by
  obtain ⟨k, m, h1, h2⟩ := h
  exact ⟨_, _, h1.trans h', by omega⟩

theorem ParseCount.paid {a b : Dom} (h : ParseCount a b 1) : Paid a b := by
  rcases h with rfl | ⟨k, m, h1, h2⟩
  · exact (Delta.refl b).paid (by omega)
  · exact ⟨k, m, h1, by omega⟩

theorem ParseCount.spare {a b : Dom} (h : ParseCount a b 1) (hlt : a.nodes.length < b.nodes.length) : Spare a b := by
  rcases h with rfl | h
  · omega
  · exact h

theorem appendHTML_count {junk : Nat → Out Bool} (hj : Reads junk) (p : Nat) (html : Str) (d : Dom)
    (hne : NonEmptyFrag junk html d) : Ok (fun r => Paid d r.2) (appendHTML junk p html d) := by
  unfold appendHTML
  dsimp only
  intro x hx
  revert x
  cases hp : parseExtra junk html d with
  | longjmp => exact Ok.longjmp
  | ub w => exact Ok.ub
  | hang => exact Ok.hang
  | ok r =>
    have hc := parseExtra_count hj html d r hp
    simp only [Out.bind_ok]
    by_cases hr : r.ok
    · have hs := hc.spare (hne r hp hr)
      have up : ∀ (a n : Nat) (d1 : Dom), Spare d d1 → Ok (fun r => Paid d r.2) (do
          let d ← appendUpdateReferences p n d1
          Out.ok (a, d)) := fun a n d1 h =>
        (appendUpdate_count _ _ _).bind fun d' h' => Ok.ok (h.one h')
      simp only [hr, Bool.not_true, Bool.false_eq_true, if_false]
      refine (?_ : Ok _ _)
      split
      · refine Ok.triv.bind fun l _ => ?_
        refine Ok.triv.bind fun nd _ => ?_
        split
        · split
          · refine Ok.triv.bind fun ln _ => ?_
            refine (tryMerge_count _ _ _ _).bind fun ⟨mb, md⟩ hm => ?_
            dsimp only at hm ⊢
            split
            · refine (removeNode_count _ _).bind fun d1 h1 => ?_
              exact up _ _ _ ((hs.same hm).same h1)
            · exact up _ _ _ (hs.same hm)
          · exact up _ _ _ hs
        · split
          · refine Ok.triv.bind fun ln _ => ?_
            refine (tryMerge_count _ _ _ _).bind fun ⟨mb, md⟩ hm => ?_
            dsimp only at hm ⊢
            split
            · exact (removeNode_count _ _).bind fun d1 h1 => Ok.ok ((hs.same hm).same h1).paid
            · exact up _ _ _ (hs.same hm)
          · exact up _ _ _ hs
      · exact up _ _ _ hs
    · simp only [Bool.not_eq_true] at hr
      simp only [hr, Bool.not_false, if_true]
      exact Ok.ok hc.paid

theorem prependHTML_count {junk : Nat → Out Bool} (hj : Reads junk) (p : Nat) (html : Str) (d : Dom)
    (hne : NonEmptyFrag junk html d) : Ok (fun r => Paid d r.2) (prependHTML junk p html d) := by
  unfold prependHTML
  dsimp only
  intro x hx
  revert x
  cases hp : parseExtra junk html d with
  | longjmp => exact Ok.longjmp
  | ub w => exact Ok.ub
  | hang => exact Ok.hang
  | ok r =>
    have hc := parseExtra_count hj html d r hp
    simp only [Out.bind_ok]
    by_cases hr : r.ok
    · have hs := hc.spare (hne r hp hr)
      have up : ∀ (a n : Nat) (d1 : Dom), Spare d d1 → Ok (fun r => Paid d r.2) (do
          let d ← prependUpdateReferences p n d1
          Out.ok (a, d)) := fun a n d1 h =>
        (prependUpdate_count _ _ _).bind fun d' h' => Ok.ok (h.one h')
      simp only [hr, Bool.not_true, Bool.false_eq_true, if_false]
      refine (?_ : Ok _ _)
      split
      · refine Ok.triv.bind fun l _ => ?_
        refine Ok.triv.bind fun nd _ => ?_
        split
        · split
          · refine (tryMerge_count _ _ _ _).bind fun ⟨mb, md⟩ hm => ?_
            dsimp only at hm ⊢
            split
            · refine (removeNode_count _ _).bind fun d1 h1 => ?_
              exact up _ _ _ ((hs.same hm).same h1)
            · exact up _ _ _ (hs.same hm)
          · exact up _ _ _ hs
        · refine Ok.triv.bind fun nd _ => ?_
          split
          · refine (tryMerge_count _ _ _ _).bind fun ⟨mb, md⟩ hm => ?_
            dsimp only at hm ⊢
            split
            · exact (removeNode_count _ _).bind fun d1 h1 => Ok.ok ((hs.same hm).same h1).paid
            · exact up _ _ _ (hs.same hm)
          · exact up _ _ _ hs
      · exact up _ _ _ hs
    · simp only [Bool.not_eq_true] at hr
      simp only [hr, Bool.not_false, if_true]
      exact Ok.ok hc.paid

theorem Paid.same {a b c : Dom} (h : Paid a b) (h' : Delta b c 0 0) : Paid a c := by
  obtain ⟨k, m, h1, h2⟩ := h
  exact ⟨k, m, h1.trans h', h2⟩

theorem replaceHTML_count {junk : Nat → Out Bool} (hj : Reads junk) (o : Nat) (html : Str) (d : Dom) :
    Ok (fun r => Paid d r.2) (replaceWithHTML junk o html d) := by
  unfold replaceWithHTML
  dsimp only
  refine (parseExtra_count hj html d).bind fun r hc => ?_
  have hs := hc.paid
  split
  · exact Ok.ok hs
  · refine Ok.triv.bind fun l _ => ?_
    split
    · have h1 : Ok (fun x => Delta r.dom x.2 0 0) (replaceMergeFirst o d.nodes.length r.dom) := by
        unfold replaceMergeFirst
        refine Ok.triv.bind fun nd _ => ?_
        split
        · refine (tryMergePrev_count _ _ _).bind fun ⟨mb, md⟩ hm => ?_
          dsimp only at hm ⊢
          split
          · exact (removeNode_count _ _).bind fun d1 h1 => Ok.ok (hm.trans h1)
          · exact Ok.ok hm
        · exact Ok.ok (Delta.refl _)
      refine h1.bind fun x hx => ?_
      have h2 : Ok (fun y => Delta x.2 y 0 0) (replaceMergeLast o l x.2) := by
        unfold replaceMergeLast
        refine Ok.triv.bind fun nd _ => ?_
        split
        · refine (tryMergeNext_count _ _ _).bind fun ⟨mb, md⟩ hm => ?_
          dsimp only at hm ⊢
          split
          · exact (removeNode_count _ _).mono fun d1 h1 => hm.trans h1
          · exact Ok.ok hm
        · exact Ok.ok (Delta.refl _)
      refine h2.bind fun y hy => ?_
      exact (replaceUpdate_count _ _ _).bind fun z hz => Ok.ok (((hs.same hx).same hy).same hz)
    · refine (tryMergeBoth_count _ _ _).bind fun ⟨mb, md⟩ hm => ?_
      dsimp only at hm ⊢
      split
      · refine (removeNode_count _ _).bind fun d1 h1 => ?_
        refine (removeNode_count _ _).bind fun d2 h2 => ?_
        unfold replaceReturn
        split
        · exact Ok.ok (((hs.same hm).same h1).same h2)
        · exact Ok.ub
      · exact (replaceUpdate_count _ _ _).bind fun z hz => Ok.ok ((hs.same hm).same hz)

theorem runOp_count {junk : Nat → Out Bool} (hj : Reads junk) {op : Op} {d : Dom} (ha : Allowed junk d op) :
    Ok (fun d' => Paid d d') (runOp junk op d) := by
  have p0 : ∀ d', Delta d d' 0 0 → Paid d d' := fun d' h => h.paid (by omega)
  cases op with
  | attr op =>
    cases op with
    | add n k v => exact (addProperty_count n k v d).mono p0
    | addBool n b => exact (addBoolProperty_count n b d).mono p0
    | set n k v => exact (setPropertyValue_count n k v d).bind fun r h => Ok.ok (p0 _ h)
    | remove n k => exact Ok.ok (p0 _ (removeProperty_count n k d))
    | removeBool n b => exact Ok.ok (p0 _ (removeBoolProperty_count n b d))
  | addText n t a => exact (addText_count n t a d).mono p0
  | setTag t n p => exact (setTag_count t n p d).mono p0
  | setText n t => exact (setText_count n t d).mono fun d' h => h.paid (by omega)
  | removeNode n => exact (removeNode_count n d).mono p0
  | removeChildren n => exact (removeChildren_count n d).mono p0
  | appendDoc p doc => exact (appendDoc_count p doc d).drop fun _ h => h
  | appendText p t => exact (appendText_count p t d).drop fun _ h => h
  | appendHTML p h => exact (appendHTML_count hj p h d ha.2).drop fun _ h => h
  | prependDoc p doc => exact (prependDoc_count p doc d).drop fun _ h => h
  | prependText p t => exact (prependText_count p t d).drop fun _ h => h
  | prependHTML p h => exact (prependHTML_count hj p h d ha.2).drop fun _ h => h
  | replaceDoc n doc => exact (replaceDoc_count n doc d).drop fun _ h => h
  | replaceText n t => exact (replaceText_count n t d).drop fun _ h => h
  | replaceHTML n h => exact (replaceHTML_count hj n h d).drop fun _ h => h

theorem duplicate_count (d : Dom) : Ok (fun d' => Delta d d' 0 0) (duplicateDom d) := by
  unfold duplicateDom
  refine Ok.triv.bind fun _ _ => ?_
  refine Ok.triv.bind fun _ _ => ?_
  refine Ok.triv.bind fun _ _ => ?_
  exact Ok.triv.bind fun _ _ => Ok.ok ⟨rfl, rfl⟩

/-- In a reachable DOM the first-child and the next-sibling table have at most one row per node. -/
theorem Spec.Reachable.rows {d : Dom} (h : Reachable d) : d.fc.length + d.nn.length + 2 ≤ d.nodes.length := by
  induction h with
  | @parsed s d hd =>
    unfold createDom at hd
    cases hp : parseRoot (fun _ => .ub .oobIndex) s Dom.init with
    | ok r =>
      rw [hp] at hd
      simp only [Out.bind_ok, Out.ok.injEq] at hd
      have := parse_count (slack := 0) (junk := fun _ => .ub .oobIndex) (s := s) (prev := rootID)
        (stack := [(rootID, [])]) (by simp) (by omega)
        (Or.inr ⟨0, 0, Delta.refl Dom.init, by omega⟩) r hp
      split at hd
      · cases hd
        rcases this with e | ⟨k, m, h1, h2⟩
        · rw [e]; decide
        · have a := h1.nodes
          have b := h1.rows
          rw [show Dom.init.nodes.length = 2 from rfl] at a
          rw [show Dom.init.fc.length = 0 from rfl, show Dom.init.nn.length = 0 from rfl] at b
          omega
      · cases hd
    | longjmp => rw [hp] at hd; cases hd
    | ub w => rw [hp] at hd; cases hd
    | hang => rw [hp] at hd; cases hd
  | edited hj _ ha hr ih =>
    obtain ⟨k, m, h1, h2⟩ := runOp_count hj ha _ hr
    have a := h1.nodes
    have b := h1.rows
    omega
  | duplicated _ hr ih =>
    have h1 := duplicate_count _ _ hr
    have a := h1.nodes
    have b := h1.rows
    omega

end Flo
