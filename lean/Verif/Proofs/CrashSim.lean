import Verif.Spec.Crash
import Verif.Proofs.CrashEdit
/-!
# The programs that may fail are the functions of the other models (C125)
-/
namespace Flo.Crash
open Spec CM

/-- The program `m`, run on `d`, has the outcome `o` (whose value and DOM `p` extracts): with enough memory it is done like `o`, with
less it fails. -/
def Sim {α β : Type} (p : β → α × Dom) (m : CM α) (d : Dom) (o : Out β) : Prop :=
  match o with
  | .ok b => ∃ c, (∀ k, m (c + k) d = .done (p b).1 (p b).2 k) ∧ ∀ k, k < c → ∃ x, m k d = .fail x
  | .longjmp => ∀ k, ∃ x, m k d = .fail x
  | _ => ∀ k, m k d = .stop ∨ ∃ x, m k d = .fail x

section
variable {α β γ δ : Type}

theorem Sim.bind {p : β → α × Dom} {q : δ → γ × Dom} {m : CM α} {d : Dom} {o : Out β} {k : α → CM γ} {h : β → Out δ} (hm : Sim p m d o)
    (hk : ∀ b, o = .ok b → Sim q (k (p b).1) (p b).2 (h b)) : Sim q (m >>= k) d (o >>= h) := by
  cases o with
  | ok b =>
    obtain ⟨c, h1, h2⟩ := hm
    have hkb := hk b rfl
    rw [Out.bind_ok]
    have run : ∀ j, (m >>= k) (c + j) d = k (p b).1 j (p b).2 := fun j => by rw [bind_run, h1 j]
    have low : ∀ j, j < c → ∃ x, (m >>= k) j d = .fail x := fun j hj => by
      obtain ⟨x, hx⟩ := h2 j hj
      exact ⟨x, by rw [bind_run, hx]⟩
    unfold Sim at hkb ⊢
    cases e : h b with
    | ok r =>
      rw [e] at hkb
      obtain ⟨c', g1, g2⟩ := hkb
      refine ⟨c + c', fun j => ?_, fun j hj => ?_⟩
      · rw [Nat.add_assoc, run, g1]
      · by_cases hc : j < c
        · exact low j hc
        · obtain ⟨i, rfl⟩ : ∃ i, j = c + i := ⟨j - c, by omega⟩
          rw [run]
          exact g2 i (by omega)
    | longjmp =>
      rw [e] at hkb
      intro j
      by_cases hc : j < c
      · exact low j hc
      · obtain ⟨i, rfl⟩ : ∃ i, j = c + i := ⟨j - c, by omega⟩
        rw [run]; exact hkb i
    | ub w =>
      rw [e] at hkb
      intro j
      by_cases hc : j < c
      · exact Or.inr (low j hc)
      · obtain ⟨i, rfl⟩ : ∃ i, j = c + i := ⟨j - c, by omega⟩
        rw [run]; exact hkb i
    | hang =>
      rw [e] at hkb
      intro j
      by_cases hc : j < c
      · exact Or.inr (low j hc)
      · obtain ⟨i, rfl⟩ : ∃ i, j = c + i := ⟨j - c, by omega⟩
        rw [run]; exact hkb i
  | longjmp =>
    intro j
    obtain ⟨x, hx⟩ := hm j
    exact ⟨x, by rw [bind_run, hx]⟩
  | ub w =>
    intro j
    rcases hm j with hx | ⟨x, hx⟩
    · left; rw [bind_run, hx]
    · right; exact ⟨x, by rw [bind_run, hx]⟩
  | hang =>
    intro j
    rcases hm j with hx | ⟨x, hx⟩
    · left; rw [bind_run, hx]
    · right; exact ⟨x, by rw [bind_run, hx]⟩

theorem Sim.pure {p : β → α × Dom} {d : Dom} {b : β} {a : α} (h : p b = (a, d)) : Sim p (pure a : CM α) d (.ok b) := by
  refine ⟨0, fun k => ?_, fun k hk => absurd hk (by omega)⟩
  rw [Nat.zero_add, h]; rfl

theorem Sim.ask {q : δ → γ × Dom} {g : Dom → Out α} {d : Dom} {k : α → CM γ} {h : α → Out δ} {o : Out α} (ho : g d = o)
    (hk : ∀ a, o = .ok a → Sim q (k a) d (h a)) : Sim q (CM.ask g >>= k) d (o >>= h) := by
  refine Sim.bind (p := fun a => (a, d)) ?_ hk
  unfold CM.ask Sim
  subst ho
  cases e : g d with
  | ok a => exact ⟨0, fun j => by simp only [e, Nat.zero_add], fun j hj => absurd hj (by omega)⟩
  | longjmp => exact fun j => ⟨d, by simp only [e]⟩
  | ub w => exact fun j => Or.inl (by simp only [e])
  | hang => exact fun j => Or.inl (by simp only [e])

theorem Sim.read {q : δ → γ × Dom} {g : Dom → α} {d : Dom} {k : α → CM γ} {o : Out δ} (hk : Sim q (k (g d)) d o) :
    Sim q (CM.read g >>= k) d o := hk

theorem Sim.write {q : δ → γ × Dom} {w : Dom → Dom} {d : Dom} {k : Unit → CM γ} {o : Out δ} (hk : Sim q (k ()) (w d) o) :
    Sim q (CM.write w >>= k) d o := hk

theorem Sim.writeEnd {p : β → Unit × Dom} {w : Dom → Dom} {d : Dom} {b : β} (h : (p b).2 = w d) : Sim p (CM.write w) d (.ok b) :=
  ⟨0, fun k => by rw [Nat.zero_add, h]; rfl, fun k hk => absurd hk (by omega)⟩

theorem Sim.point {q : δ → γ × Dom} {d : Dom} {k : Unit → CM γ} {o : Out δ} (hk : Sim q (k ()) d o) : Sim q (CM.point >>= k) d o := by
  have := Sim.bind (p := fun _ : Unit => ((), d)) (m := CM.point) (o := .ok ()) (h := fun _ => o)
    ⟨1, fun j => by rw [Nat.add_comm]; rfl, fun j hj => ⟨d, by obtain rfl : j = 0 := (by omega); rfl⟩⟩ (fun _ _ => hk)
  exact this

theorem Sim.pushEnd {p : β → Unit × Dom} {w : Dom → Dom} {d : Dom} {b : β} (h : (p b).2 = w d) : Sim p (CM.push w) d (.ok b) :=
  Sim.point (Sim.writeEnd h)

theorem Sim.push {q : δ → γ × Dom} {w : Dom → Dom} {d : Dom} {k : Unit → CM γ} {o : Out δ} (hk : Sim q (k ()) (w d) o) :
    Sim q (CM.push w >>= k) d o :=
  Sim.bind (p := fun x : Dom => ((), x)) (o := .ok (w d)) (h := fun _ => o) (Sim.pushEnd rfl) (fun b e => by cases e; exact hk)

theorem Sim.change {g : Dom → Out Dom} {d : Dom} : Sim (fun x => ((), x)) (CM.change g) d (g d) := by
  unfold CM.change Sim
  cases e : g d with
  | ok a => exact ⟨0, fun j => by simp only [e, Nat.zero_add], fun j hj => absurd hj (by omega)⟩
  | longjmp => exact fun j => ⟨d, by simp only [e]⟩
  | ub w => exact fun j => Or.inl (by simp only [e])
  | hang => exact fun j => Or.inl (by simp only [e])

theorem Sim.iteC {p : β → α × Dom} {c : Prop} [Decidable c] {m m' : CM α} {d : Dom} {o o' : Out β} (h : c → Sim p m d o) (h' : ¬c → Sim p m' d o') :
    Sim p (if c then m else m') d (if c then o else o') := by
  split
  · exact h ‹_›
  · exact h' ‹_›

theorem Sim.stop {p : β → α × Dom} {d : Dom} : Sim p (CM.ask fun _ => .hang) d (.hang : Out β) := fun _ => Or.inl rfl

end

/-- An insertion that finds the name leaves the map. -/
theorem insert_found_map {m : AutoMap} {s : Str} {r : Inserted} (h : m.insert s = .ok r) (hf : r.wasInserted = false) : r.map = m := by
  unfold AutoMap.insert at h
  split at h
  · cases h; rfl
  · split at h
    · cases h
    · cases h; cases hf

theorem sim_internBool (s : Str) (d : Dom) : Sim id (internBoolC s) d (internBool s d) := by
  unfold internBoolC internBool
  refine Sim.ask rfl fun r hr => ?_
  split
  · rename_i hw
    exact Sim.push (Sim.push (Sim.pure (by simp only [hw, if_true]; rfl)))
  · rename_i hw
    have hw : r.wasInserted = false := by simpa using hw
    exact Sim.pure (by simp only [hw, insert_found_map hr hw]; rfl)

theorem sim_internKey (s : Str) (d : Dom) : Sim id (internKeyC s) d (internKey s d) := by
  unfold internKeyC internKey
  refine Sim.ask rfl fun r hr => ?_
  split
  · rename_i hw
    exact Sim.push (Sim.push (Sim.pure (by simp only [hw, if_true]; rfl)))
  · rename_i hw
    have hw : r.wasInserted = false := by simpa using hw
    exact Sim.pure (by simp only [hw, insert_found_map hr hw]; rfl)

theorem sim_internVal (s : Str) (d : Dom) : Sim id (internValC s) d (internVal s d) := by
  unfold internValC internVal
  refine Sim.ask rfl fun r hr => ?_
  split
  · rename_i hw
    exact Sim.push (Sim.push (Sim.pure (by simp only [hw, if_true]; rfl)))
  · rename_i hw
    have hw : r.wasInserted = false := by simpa using hw
    exact Sim.pure (by simp only [hw, insert_found_map hr hw]; rfl)

/-- The result of a program without value. -/
abbrev un (x : Dom) : Unit × Dom := ((), x)

theorem sim_addProperty (n : Nat) (k v : Str) (d : Dom) : Sim un (addPropertyC n k v) d (addProperty n k v d) := by
  unfold addPropertyC addProperty
  exact (sim_internKey k d).bind fun ⟨i, d1⟩ _ => (sim_internVal v d1).bind fun ⟨j, d2⟩ _ => Sim.pushEnd rfl

theorem sim_addBool (n : Nat) (b : Str) (d : Dom) : Sim un (addBoolPropertyC n b) d (addBoolProperty n b d) := by
  unfold addBoolPropertyC addBoolProperty
  exact (sim_internBool b d).bind fun ⟨i, d1⟩ _ => Sim.pushEnd rfl

theorem sim_setValue (n : Nat) (k v : Str) (d : Dom) : Sim id (setPropertyValueC n k v) d (setPropertyValue n k v d) := by
  unfold setPropertyValueC setPropertyValue
  refine Sim.read ?_
  dsimp only
  refine Sim.iteC (fun _ => Sim.pure rfl) fun _ => Sim.read ?_
  cases getProperty n (d.keyMap.contains k) d with
  | none => exact Sim.pure rfl
  | some i => exact (sim_internVal v d).bind fun ⟨j, d1⟩ _ => Sim.write (Sim.pure rfl)

theorem sim_addText (n : Nat) (t : Str) (e : Bool) (d : Dom) : Sim un (addTextToTextNodeC n t e) d (addTextToTextNode n t e d) := by
  unfold addTextToTextNodeC addTextToTextNode
  exact Sim.ask rfl fun nd _ => Sim.ask rfl fun prev _ => Sim.pushEnd rfl

theorem sim_setTag (t : Str) (n : Nat) (p : Bool) (d : Dom) : Sim un (setTagC t n p) d (setTag t n p d) := by
  unfold setTagC setTag
  refine Sim.ask rfl fun r hr => ?_
  dsimp only
  split
  · refine Sim.push (Sim.push ?_)
    exact Sim.ask (g := fun d : Dom => d.node n) rfl fun nd _ => Sim.writeEnd rfl
  · rename_i hw
    have hw : r.wasInserted = false := by simpa using hw
    rw [insert_found_map hr hw]
    exact Sim.ask (g := fun d : Dom => d.node n) rfl fun nd _ => Sim.writeEnd rfl

theorem sim_tryMerge (i j : Nat) (e : Bool) (d : Dom) : Sim id (tryMergeC i j e) d (tryMerge i j e d) := by
  unfold tryMergeC tryMerge
  refine Sim.ask rfl fun nd _ => Sim.iteC (fun _ => ?_) fun _ => Sim.pure rfl
  exact Sim.ask rfl fun r _ => Sim.ask rfl fun t _ => (sim_addText i t e d).bind fun d1 _ => Sim.pure rfl

theorem sim_createNode (ty : NodeType) (d : Dom) : Sim id (createNodeC ty) d (createNode ty d) := by
  unfold createNodeC createNode
  refine Sim.read ?_
  dsimp only
  refine Sim.iteC (fun _ => fun k => ⟨d, rfl⟩) fun _ => Sim.push (Sim.pure rfl)

theorem sim_updateRefs (new prev : Nat) (stack : List (Nat × Str)) (d : Dom) :
    Sim un (parserUpdateReferencesC new prev stack) d (.ok (parserUpdateReferences new prev stack d)) := by
  unfold parserUpdateReferencesC parserUpdateReferences
  by_cases hc : new > 0 ∧ prev > 0
  · rw [if_pos hc, if_pos hc]
    cases stack with
    | nil => exact Sim.pushEnd rfl
    | cons e es =>
      obtain ⟨p, t⟩ := e
      refine Sim.push ?_
      dsimp only
      by_cases hp : p = prev
      · rw [if_pos hp, if_pos hp]; exact Sim.pushEnd rfl
      · rw [if_neg hp, if_neg hp]; exact Sim.pushEnd rfl
  · rw [if_neg hc, if_neg hc]; exact Sim.pure rfl

theorem sim_parseTextNode (s : Str) (idx : Nat) (tag : Str) (d : Dom) :
    Sim (fun r : Nat × Nat × Dom => ((r.1, r.2.1), r.2.2)) (parseTextNodeC s idx tag) d (parseTextNode s idx tag d) := by
  unfold parseTextNodeC parseTextNode
  refine (sim_createNode .text d).bind fun ⟨id, d1⟩ _ => ?_
  refine Sim.ask rfl fun ⟨raw, i⟩ _ => Sim.point ?_
  exact Sim.ask rfl fun nd _ => Sim.write (Sim.pure rfl)

theorem sim_attrLoop (s : Str) (n : Nat) : ∀ f idx can d,
    Sim (fun r : Nat × Bool × Dom => ((r.1, r.2.1), r.2.2)) (attrLoopC s n f idx can) d (attrLoop s n f idx can d)
  | 0, _, _, _ => Sim.stop
  | f + 1, idx, can, d => by
    unfold attrLoopC attrLoop
    cases s[idx]? with
    | none => exact Sim.pure rfl
    | some ch =>
      dsimp only
      refine Sim.iteC (fun _ => Sim.pure rfl) fun _ => Sim.iteC (fun _ => sim_attrLoop s n f _ _ d) fun _ =>
        Sim.iteC (fun _ => ?_) fun _ => sim_attrLoop s n f _ _ d
      refine Sim.ask rfl fun ⟨key, i⟩ _ => ?_
      dsimp only
      refine Sim.iteC (fun _ => ?_) fun _ => ?_
      · refine Sim.ask rfl fun ⟨value, j⟩ _ => ?_
        exact (sim_addProperty n key value d).bind fun d1 _ => sim_attrLoop s n f _ _ d1
      · exact (sim_addBool n key d).bind fun d1 _ => sim_attrLoop s n f _ _ d1

theorem sim_parseDocumentNode (s : Str) (idx : Nat) (ex : Bool) (d : Dom) :
    Sim (fun r : NodeParse => ((⟨r.id, r.canHaveChildren, r.tag, r.next⟩ : NodeParseC), r.dom)) (parseDocumentNodeC s idx ex) d
      (parseDocumentNode s idx ex d) := by
  unfold parseDocumentNodeC parseDocumentNode
  refine (sim_createNode .document d).bind fun ⟨id, d1⟩ _ => ?_
  refine Sim.ask rfl fun sl _ => Sim.ask rfl fun tag _ => ?_
  refine (sim_attrLoop s id _ _ _ d1).bind fun ⟨j, can, d2⟩ _ => ?_
  exact (sim_setTag tag id can d2).bind fun d3 _ => Sim.pure rfl

/-- How the outcome of an iteration is told in the two models. -/
def stepOf : PStep → Option PStateC × Dom
  | .next st => (some ⟨st.idx, st.stack, st.prev⟩, st.dom)
  | .null d => (none, d)

theorem sim_parseText (s : Str) (idx : Nat) (st : PState) :
    Sim stepOf (parseTextC s idx ⟨st.idx, st.stack, st.prev⟩) st.dom (parseText s idx st) := by
  unfold parseTextC parseText
  dsimp only
  refine (sim_parseTextNode s idx _ st.dom).bind fun ⟨id, i, d1⟩ _ => ?_
  have := (sim_updateRefs id st.prev st.stack d1).bind (q := stepOf)
    (k := fun _ => (pure (some { idx := skipSpace s i, stack := st.stack, prev := id }) : CM (Option PStateC)))
    (h := fun d => .ok (.next { idx := skipSpace s i, dom := d, stack := st.stack, prev := id })) fun b e => Sim.pure rfl
  exact this

theorem sim_parseElement (s : Str) (idx : Nat) (st : PState) :
    Sim stepOf (parseElementC s idx ⟨st.idx, st.stack, st.prev⟩) st.dom (parseElement s idx st) := by
  unfold parseElementC parseElement
  dsimp only
  refine (sim_parseDocumentNode s idx _ st.dom).bind fun r _ => ?_
  have := (sim_updateRefs r.id st.prev st.stack r.dom).bind (q := stepOf)
    (k := fun _ => ((if r.canHaveChildren then
      if st.stack.length ≥ maxDepth then pure none
      else pure (some { idx := skipSpace s r.next, stack := (r.id, r.tag) :: st.stack, prev := r.id })
    else pure (some { idx := skipSpace s r.next, stack := st.stack, prev := r.id })) : CM (Option PStateC)))
    (h := fun d => if r.canHaveChildren then
        if st.stack.length ≥ maxDepth then .ok (.null d)
        else .ok (.next { idx := skipSpace s r.next, dom := d, stack := (r.id, r.tag) :: st.stack, prev := r.id })
      else .ok (.next { idx := skipSpace s r.next, dom := d, stack := st.stack, prev := r.id }))
    fun b e => Sim.iteC (fun _ => Sim.iteC (fun _ => Sim.pure rfl) fun _ => Sim.pure rfl) fun _ => Sim.pure rfl
  exact this

theorem endTag_eq (s : Str) (n : Nat) (st : PState) :
    stepOf (parseEndTag s n st) = (some (parseEndTagC s n ⟨st.idx, st.stack, st.prev⟩), st.dom) := by
  obtain ⟨idx, dom, stack, prev⟩ := st
  unfold parseEndTag parseEndTagC
  cases stack with
  | nil => rfl
  | cons e es =>
    dsimp only
    split <;> rfl

theorem sim_parseStep (junk : Nat → Out Bool) (s : Str) (n : Nat) (st : PState) :
    Sim stepOf (parseStepC junk s n ⟨st.idx, st.stack, st.prev⟩) st.dom (parseStep junk s n st) := by
  unfold parseStepC parseStep
  dsimp only
  refine Sim.iteC (fun _ => ?_) fun _ => sim_parseText s _ st
  refine Sim.ask rfl fun c _ => Sim.iteC (fun _ => ?_) fun _ => ?_
  · exact Sim.ask rfl fun i _ => Sim.pure rfl
  · refine Sim.ask rfl fun e _ => Sim.iteC (fun _ => Sim.pure (endTag_eq s n st)) fun _ => ?_
    exact Sim.iteC (fun _ => sim_parseElement s _ st) fun _ => sim_parseText s _ st

theorem sim_parseLoop (junk : Nat → Out Bool) (s : Str) (n : Nat) : ∀ (f : Nat) (st : PState),
    Sim (fun r : ParseRes => (r.ok, r.dom)) (parseLoopC junk s n f ⟨st.idx, st.stack, st.prev⟩) st.dom (parseLoop junk s n f st)
  | 0, _ => Sim.stop
  | f + 1, st => by
    unfold parseLoopC parseLoop
    dsimp only
    refine Sim.iteC (fun _ => ?_) fun _ => Sim.pure rfl
    refine (sim_parseStep junk s n st).bind fun r _ => ?_
    cases r with
    | next st' => exact sim_parseLoop junk s n f st'
    | null d => exact Sim.pure rfl

theorem sim_parseExtra (junk : Nat → Out Bool) (s : Str) (d : Dom) :
    Sim (fun r : ParseRes => (r.ok, r.dom)) (parseExtraC junk s) d (parseExtra junk s d) :=
  sim_parseLoop junk s 0 (s.length + 1) { idx := skipSpace s 0, dom := d, stack := [], prev := errorID }

theorem sim_addBools (n : Nat) : ∀ bs d, Sim un (addBoolsC n bs) d (addBools n bs d)
  | [], d => Sim.pure rfl
  | b :: bs, d => (sim_addBool n b d).bind fun d1 _ => sim_addBools n bs d1

theorem sim_addProps (n : Nat) : ∀ ps d, Sim un (addPropsC n ps) d (addProps n ps d)
  | [], d => Sim.pure rfl
  | (k, v) :: ps, d => (sim_addProperty n k v d).bind fun d1 _ => sim_addProps n ps d1

theorem sim_parseDocumentElement (doc : DocNode) (d : Dom) : Sim id (parseDocumentElementC doc) d (parseDocumentElement doc d) := by
  unfold parseDocumentElementC parseDocumentElement
  refine (sim_createNode .document d).bind fun ⟨id, d1⟩ _ => ?_
  exact (sim_setTag _ _ _ d1).bind fun d2 _ => (sim_addBools _ _ d2).bind fun d3 _ => (sim_addProps _ _ d3).bind fun d4 _ => Sim.pure rfl

theorem sim_parseTextElement (t : Str) (d : Dom) : Sim id (parseTextElementC t) d (parseTextElement t d) := by
  unfold parseTextElementC parseTextElement
  refine (sim_createNode .text d).bind fun ⟨id, d1⟩ _ => ?_
  exact Sim.ask rfl fun nd _ => Sim.push (Sim.pure rfl)

theorem sim_setTextContent (n : Nat) (t : Str) (d : Dom) : Sim un (setTextContentC n t) d (setTextContent n t d) := by
  unfold setTextContentC setTextContent
  exact (Sim.change (g := removeChildren n)).bind fun d1 _ => (sim_parseTextElement t d1).bind fun ⟨id, d2⟩ _ => Sim.push (Sim.pushEnd rfl)

theorem sim_connectLoop (parent : Nat) : ∀ f other d, Sim un (connectLoopC parent f other) d (connectLoop parent f other d)
  | 0, _, _ => Sim.stop
  | f + 1, other, d => by
    unfold connectLoopC connectLoop
    exact Sim.iteC (fun _ => Sim.push (Sim.read (sim_connectLoop parent f _ _))) fun _ => Sim.pure rfl

theorem sim_connectOthers (parent last : Nat) (d : Dom) : Sim un (connectOthersC parent last) d (connectOthers parent last d) :=
  Sim.read (Sim.read (sim_connectLoop parent _ _ d))

theorem sim_appendRefs (parent new : Nat) (d : Dom) : Sim un (appendUpdateReferencesC parent new) d (appendUpdateReferences parent new d) := by
  unfold appendUpdateReferencesC appendUpdateReferences
  refine Sim.read ?_
  cases getFirstChildNode parent d with
  | none => exact Sim.push (Sim.push (sim_connectOthers parent new _))
  | some i => exact Sim.ask rfl fun last _ => Sim.push (Sim.push (sim_connectOthers parent new _))

theorem sim_appendDoc (parent : Nat) (doc : DocNode) (d : Dom) : Sim id (appendDocumentNodeC parent doc) d (appendDocumentNode parent doc d) := by
  unfold appendDocumentNodeC appendDocumentNode
  refine (sim_parseDocumentElement doc d).bind fun ⟨id, d1⟩ _ => Sim.iteC (fun _ => Sim.pure rfl) fun _ => ?_
  exact (sim_appendRefs parent id d1).bind fun d2 _ => Sim.pure rfl

theorem sim_appendText (parent : Nat) (t : Str) (d : Dom) : Sim id (appendTextNodeC parent t) d (appendTextNode parent t d) := by
  unfold appendTextNodeC appendTextNode
  refine (sim_parseTextElement t d).bind fun ⟨id, d1⟩ _ => Sim.iteC (fun _ => Sim.pure rfl) fun _ => ?_
  have tail : ∀ d2, Sim _root_.id (do appendUpdateReferencesC parent id; pure id : CM Nat) d2 (do
      let d ← appendUpdateReferences parent id d2
      .ok (id, d)) := fun d2 => (sim_appendRefs parent id d2).bind fun d3 _ => Sim.pure rfl
  refine Sim.read (Sim.iteC (fun _ => ?_) fun _ => tail d1)
  refine Sim.ask rfl fun child _ => (sim_tryMerge child id true d1).bind fun ⟨b, d2⟩ _ => Sim.iteC (fun _ => ?_) fun _ => tail d2
  exact (Sim.change (g := removeNode id)).bind fun d3 _ => Sim.pure rfl

theorem sim_prependRefs (parent new : Nat) (d : Dom) : Sim un (prependUpdateReferencesC parent new) d (prependUpdateReferences parent new d) := by
  unfold prependUpdateReferencesC prependUpdateReferences
  refine Sim.read ?_
  dsimp only
  cases getFirstChildNode parent d with
  | none => exact Sim.push (Sim.push (sim_connectOthers parent new _))
  | some i =>
    exact Sim.read (Sim.write (Sim.ask rfl fun last _ => Sim.push (Sim.push (sim_connectOthers parent new _))))

theorem sim_prependDoc (parent : Nat) (doc : DocNode) (d : Dom) : Sim id (prependDocumentNodeC parent doc) d (prependDocumentNode parent doc d) := by
  unfold prependDocumentNodeC prependDocumentNode
  refine (sim_parseDocumentElement doc d).bind fun ⟨id, d1⟩ _ => Sim.iteC (fun _ => Sim.pure rfl) fun _ => ?_
  exact (sim_prependRefs parent id d1).bind fun d2 _ => Sim.pure rfl

theorem sim_prependText (parent : Nat) (t : Str) (d : Dom) : Sim id (prependTextNodeC parent t) d (prependTextNode parent t d) := by
  unfold prependTextNodeC prependTextNode
  refine (sim_parseTextElement t d).bind fun ⟨id, d1⟩ _ => Sim.iteC (fun _ => Sim.pure rfl) fun _ => ?_
  have tail : ∀ d2, Sim _root_.id (do prependUpdateReferencesC parent id; pure id : CM Nat) d2 (do
      let d ← prependUpdateReferences parent id d2
      .ok (id, d)) := fun d2 => (sim_prependRefs parent id d2).bind fun d3 _ => Sim.pure rfl
  refine Sim.read (Sim.iteC (fun _ => ?_) fun _ => tail d1)
  refine (sim_tryMerge _ id false d1).bind fun ⟨b, d2⟩ _ => Sim.iteC (fun _ => ?_) fun _ => tail d2
  exact (Sim.change (g := removeNode id)).bind fun d3 _ => Sim.pure rfl

theorem sim_appendHTML (junk : Nat → Out Bool) (parent : Nat) (html : Str) (d : Dom) :
    Sim id (appendHTMLC junk parent html) d (appendHTML junk parent html d) := by
  unfold appendHTMLC appendHTML
  refine Sim.read ((sim_parseExtra junk html d).bind fun r _ => Sim.iteC (fun _ => Sim.pure rfl) fun _ => Sim.read ?_)
  have tail : ∀ n d2, Sim id (do appendUpdateReferencesC parent n; pure n : CM Nat) d2 (do
      let d ← appendUpdateReferences parent n d2
      .ok (n, d)) := fun n d2 => (sim_appendRefs parent n d2).bind fun d3 _ => Sim.pure rfl
  refine Sim.iteC (fun _ => ?_) fun _ => tail _ _
  refine Sim.ask rfl fun lastNew _ => Sim.ask rfl fun node _ => Sim.iteC (fun _ => ?_) fun _ => ?_
  · refine Sim.iteC (fun _ => ?_) fun _ => tail _ _
    refine Sim.ask rfl fun lastNext _ => (sim_tryMerge lastNext _ true _).bind fun ⟨b, d2⟩ _ => Sim.iteC (fun _ => ?_) fun _ => tail _ _
    exact Sim.read ((Sim.change (g := removeNode d.nodes.length)).bind fun d3 _ => tail _ _)
  · refine Sim.iteC (fun _ => ?_) fun _ => tail _ _
    refine Sim.ask rfl fun lastNext _ => (sim_tryMerge lastNext _ true _).bind fun ⟨b, d2⟩ _ => Sim.iteC (fun _ => ?_) fun _ => tail _ _
    exact (Sim.change (g := removeNode d.nodes.length)).bind fun d3 _ => Sim.pure rfl

theorem sim_prependHTML (junk : Nat → Out Bool) (parent : Nat) (html : Str) (d : Dom) :
    Sim id (prependHTMLC junk parent html) d (prependHTML junk parent html d) := by
  unfold prependHTMLC prependHTML
  refine Sim.read ((sim_parseExtra junk html d).bind fun r _ => Sim.iteC (fun _ => Sim.pure rfl) fun _ => Sim.read ?_)
  have tail : ∀ n d2, Sim id (do prependUpdateReferencesC parent n; pure n : CM Nat) d2 (do
      let d ← prependUpdateReferences parent n d2
      .ok (n, d)) := fun n d2 => (sim_prependRefs parent n d2).bind fun d3 _ => Sim.pure rfl
  refine Sim.iteC (fun _ => ?_) fun _ => tail _ _
  refine Sim.ask rfl fun lastNew _ => Sim.ask rfl fun node _ => Sim.iteC (fun _ => ?_) fun _ => ?_
  · refine Sim.iteC (fun _ => ?_) fun _ => tail _ _
    refine (sim_tryMerge _ _ false _).bind fun ⟨b, d2⟩ _ => Sim.iteC (fun _ => ?_) fun _ => tail _ _
    exact (Sim.change (g := removeNode lastNew)).bind fun d3 _ => tail _ _
  · refine Sim.ask rfl fun node _ => Sim.iteC (fun _ => ?_) fun _ => tail _ _
    refine (sim_tryMerge _ _ false _).bind fun ⟨b, d2⟩ _ => Sim.iteC (fun _ => ?_) fun _ => tail _ _
    exact (Sim.change (g := removeNode d.nodes.length)).bind fun d3 _ => Sim.pure rfl

theorem sim_replaceConnectLoop (i : Nat) : ∀ f other d, Sim un (replaceConnectLoopC i f other) d (replaceConnectLoop i f other d)
  | 0, _, _ => Sim.stop
  | f + 1, other, d => by
    unfold replaceConnectLoopC replaceConnectLoop
    exact Sim.iteC (fun _ => Sim.push (Sim.read (sim_replaceConnectLoop i f _ _))) fun _ => Sim.pure rfl

theorem sim_replaceParent (old new : Nat) (d : Dom) : Sim un (replaceParentC (getParentNode old d) new) d (replaceParent old new d) := by
  unfold replaceParentC replaceParent
  cases getParentNode old d with
  | none => exact Sim.pure rfl
  | some i => exact Sim.write (Sim.read (Sim.read (sim_replaceConnectLoop i _ _ _)))

theorem sim_replaceRefs (old new : Nat) (d : Dom) : Sim un (replaceUpdateReferencesC old new) d (replaceUpdateReferences old new d) := by
  unfold replaceUpdateReferencesC replaceUpdateReferences
  refine Sim.ask rfl fun node _ => Sim.ask rfl fun lastNew _ => Sim.read (Sim.read (Sim.write ?_))
  exact (sim_replaceParent old new { d with nn := replacePrev old new d, fc := replaceFirst old new d }).bind fun d2 _ => Sim.writeEnd rfl

theorem sim_replaceDoc (old : Nat) (doc : DocNode) (d : Dom) : Sim id (replaceWithDocumentNodeC old doc) d (replaceWithDocumentNode old doc d) := by
  unfold replaceWithDocumentNodeC replaceWithDocumentNode
  refine (sim_parseDocumentElement doc d).bind fun ⟨id, d1⟩ _ => Sim.iteC (fun _ => Sim.pure rfl) fun _ => ?_
  exact (sim_replaceRefs old id d1).bind fun d2 _ => Sim.pure rfl

theorem sim_mergePrev (old new : Nat) (d : Dom) : Sim id (tryMergePrevC old new) d (tryMergePrev old new d) := by
  unfold tryMergePrevC tryMergePrev
  refine Sim.read ?_
  cases getPreviousNode old d with
  | none => exact Sim.pure rfl
  | some i => exact Sim.read (sim_tryMerge _ _ _ _)

theorem sim_mergeNext (old new : Nat) (d : Dom) : Sim id (tryMergeNextC old new) d (tryMergeNext old new d) := by
  unfold tryMergeNextC tryMergeNext
  refine Sim.read ?_
  cases getNextNode old d with
  | none => exact Sim.pure rfl
  | some i => exact Sim.read (sim_tryMerge _ _ _ _)

theorem sim_mergeBoth (old new : Nat) (d : Dom) : Sim id (tryMergeBothSidesC old new) d (tryMergeBothSides old new d) := by
  unfold tryMergeBothSidesC tryMergeBothSides
  refine Sim.ask rfl fun node _ => Sim.iteC (fun _ => ?_) fun _ => Sim.pure rfl
  exact (sim_mergePrev old new d).bind fun ⟨b, d2⟩ _ => Sim.iteC (fun _ => Sim.pure rfl) fun _ => sim_mergeNext old new d2

theorem sim_replaceText (old : Nat) (t : Str) (d : Dom) : Sim id (replaceWithTextNodeC old t) d (replaceWithTextNode old t d) := by
  unfold replaceWithTextNodeC replaceWithTextNode
  refine (sim_parseTextElement t d).bind fun ⟨id, d1⟩ _ => Sim.iteC (fun _ => Sim.pure rfl) fun _ => ?_
  refine (sim_mergeBoth old id d1).bind fun ⟨b, d2⟩ _ => Sim.iteC (fun _ => ?_) fun _ => ?_
  · exact (Sim.change (g := removeNode id)).bind fun d3 _ => (Sim.change (g := removeNode old)).bind fun d4 _ => Sim.pure rfl
  · exact (sim_replaceRefs old id d2).bind fun d3 _ => Sim.pure rfl

theorem sim_replaceMergeFirst (old new : Nat) (d : Dom) : Sim id (replaceMergeFirstC old new) d (replaceMergeFirst old new d) := by
  unfold replaceMergeFirstC replaceMergeFirst
  refine Sim.ask rfl fun node _ => Sim.iteC (fun _ => ?_) fun _ => Sim.pure rfl
  refine (sim_mergePrev old new d).bind fun ⟨b, d2⟩ _ => Sim.iteC (fun _ => ?_) fun _ => Sim.pure rfl
  exact Sim.read ((Sim.change (g := removeNode new)).bind fun d3 _ => Sim.pure rfl)

theorem sim_replaceMergeLast (old new : Nat) (d : Dom) : Sim un (replaceMergeLastC old new) d (replaceMergeLast old new d) := by
  unfold replaceMergeLastC replaceMergeLast
  refine Sim.ask rfl fun node _ => Sim.iteC (fun _ => ?_) fun _ => Sim.pure rfl
  exact (sim_mergeNext old new d).bind fun ⟨b, d2⟩ _ => Sim.iteC (fun _ => Sim.change (g := removeNode new)) fun _ => Sim.pure rfl

theorem replaceReturn_dom {v : Option Nat} {d : Dom} {r : Nat × Dom} (h : replaceReturn v d = .ok r) : r.2 = d := by
  unfold replaceReturn at h
  split at h
  · cases h; rfl
  · cases h

theorem sim_replaceHTML (junk : Nat → Out Bool) (old : Nat) (html : Str) (d : Dom) :
    Sim id (replaceWithHTMLC junk old html) d (replaceWithHTML junk old html d) := by
  unfold replaceWithHTMLC replaceWithHTML
  refine Sim.read ((sim_parseExtra junk html d).bind fun r _ => Sim.iteC (fun _ => Sim.pure rfl) fun _ => ?_)
  refine Sim.ask rfl fun lastNew _ => Sim.read (Sim.iteC (fun _ => ?_) fun _ => ?_)
  · refine (sim_replaceMergeFirst old _ _).bind fun ⟨n, d2⟩ _ => (sim_replaceMergeLast old lastNew _).bind fun d3 _ => ?_
    exact (sim_replaceRefs old n d3).bind fun d4 _ => Sim.pure rfl
  · refine (sim_mergeBoth old _ _).bind fun ⟨b, d2⟩ _ => Sim.iteC (fun _ => ?_) fun _ => ?_
    · refine (Sim.change (g := removeNode d.nodes.length)).bind fun d3 _ => (Sim.change (g := removeNode old)).bind fun d4 _ => ?_
      have := Sim.ask (q := id) (g := fun x => replaceReturn (getPreviousNode old r.dom) x) (d := d4) (k := fun r => (pure r.1 : CM Nat))
        (h := fun r => .ok r) rfl fun a ha => Sim.pure (by rw [← replaceReturn_dom ha]; rfl)
      cases e : replaceReturn (getPreviousNode old r.dom) d4 with
      | ok a => simp only [e] at this; simp only [un, e]; exact this
      | longjmp => simp only [e] at this; simp only [un, e]; exact this
      | ub w => simp only [e] at this; simp only [un, e]; exact this
      | hang => simp only [e] at this; simp only [un, e]; exact this
    · exact (sim_replaceRefs old _ d2).bind fun d3 _ => Sim.pure rfl

end Flo.Crash
