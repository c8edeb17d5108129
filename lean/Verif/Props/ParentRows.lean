import Verif.Proofs.Growth
import Verif.Proofs.EditMemReplace
import Verif.Props.Edit
import Verif.Props.Room
/-!
# What adding a child leaves in the table of parents (C108)

The table `parentChilds` of a DOM is an array in the arena, and arena memory is never given back.  Appending an element records one
parent.  Prepending walks along the siblings of the new child after linking it to them, and records the parent of every old child again.
-/
namespace Flo
open Spec

theorem addBools_pc (n : Nat) : ∀ (l : List Str) (d : Dom), Ok (fun d' => d'.pc = d.pc) (addBools n l d)
  | [], _ => Ok.ok rfl
  | b :: l, d => by
    refine (?_ : Ok (fun d' => d'.pc = d.pc) (addBoolProperty n b d)).bind fun d1 h1 => (addBools_pc n l d1).mono fun d2 h2 => h2.trans h1
    unfold addBoolProperty internBool
    refine (?_ : Ok (fun r : Nat × Dom => r.2.pc = d.pc) _).bind fun r h => Ok.ok h
    exact Ok.triv.bind fun r _ => Ok.ok rfl

theorem addProps_pc (n : Nat) : ∀ (l : List (Str × Str)) (d : Dom), Ok (fun d' => d'.pc = d.pc) (addProps n l d)
  | [], _ => Ok.ok rfl
  | (k, v) :: l, d => by
    refine (?_ : Ok (fun d' => d'.pc = d.pc) (addProperty n k v d)).bind fun d1 h1 => (addProps_pc n l d1).mono fun d2 h2 => h2.trans h1
    unfold addProperty internKey internVal
    refine (?_ : Ok (fun r : Nat × Dom => r.2.pc = d.pc) _).bind fun r h => ?_
    · exact Ok.triv.bind fun r _ => Ok.ok rfl
    · refine (?_ : Ok (fun r' : Nat × Dom => r'.2.pc = r.2.pc) _).bind fun r' h' => Ok.ok (h'.trans h)
      exact Ok.triv.bind fun r _ => Ok.ok rfl

theorem parseDoc_pc (doc : DocNode) (d : Dom) : Ok (fun r => r.2.pc = d.pc) (parseDocumentElement doc d) := by
  unfold parseDocumentElement createNode setTag
  refine (?_ : Ok (fun r : Nat × Dom => r.2.pc = d.pc) _).bind fun ⟨id, d1⟩ h1 => ?_
  · split
    · exact Ok.longjmp
    · exact Ok.ok rfl
  dsimp only at h1 ⊢
  refine (?_ : Ok (fun d' : Dom => d'.pc = d1.pc) _).bind fun d2 h2 => (addBools_pc _ _ _).bind fun d3 h3 => (addProps_pc _ _ _).bind fun d4 h4 =>
    Ok.ok (h4.trans (h3.trans (h2.trans h1)))
  exact Ok.triv.bind fun r _ => Ok.triv.bind fun nd _ => Ok.ok rfl

/-- The walk after the new child records the following siblings, as they are at the end. -/
theorem connect_rows {p x : Nat} {d1 d2 : Dom} (h : connectOthers p x d1 = .ok d2) {ch : Nat → List Nat} (hl : LinkedD d2 ch) {l₁ l₂ : List Nat}
    (he : ch p = l₁ ++ x :: l₂) : d2.pc.length = d1.pc.length + l₂.length := by
  have hn := (connectLoop_nn _ _ _ _ h).1
  have hc := (Linked.chain hl p he).congr (d' := d1) hn.symm
  rw [hc.connectOthers] at h
  cases h
  simp

theorem append_rows {p x : Nat} {d1 d2 : Dom} (h : appendUpdateReferences p x d1 = .ok d2) {ch : Nat → List Nat} (hl : LinkedD d2 ch) {l₁ l₂ : List Nat}
    (he : ch p = l₁ ++ x :: l₂) : d2.pc.length = d1.pc.length + 1 + l₂.length := by
  unfold appendUpdateReferences at h
  split at h
  · have := connect_rows h hl he
    simp at this
    omega
  · rw [Out.bind_eq_ok] at h
    obtain ⟨_, _, h⟩ := h
    have := connect_rows h hl he
    simp at this
    omega

theorem prepend_rows {p x : Nat} {d1 d2 : Dom} (h : prependUpdateReferences p x d1 = .ok d2) {ch : Nat → List Nat} (hl : LinkedD d2 ch) {l₁ l₂ : List Nat}
    (he : ch p = l₁ ++ x :: l₂) : d2.pc.length = d1.pc.length + 1 + l₂.length := by
  unfold prependUpdateReferences at h
  split at h
  · have := connect_rows h hl he
    simp at this
    omega
  · dsimp only at h
    rw [Out.bind_eq_ok] at h
    obtain ⟨_, _, h⟩ := h
    have := connect_rows h hl he
    simp at this
    omega

/-- Appending an element records one parent. -/
theorem C108_append (d : Dom) (h : Reachable d) (p : Nat) (hp : IsNode d p) (doc : DocNode) (id : Nat) (d' : Dom)
    (hr : appendDocumentNode p doc d = .ok (id, d')) : d'.pc.length = d.pc.length + 1 := by
  rcases C17_appendDocumentNode d h p hp doc with e | ⟨id', d'', e, hid, hk, _⟩
  · rw [hr] at e; cases e
  · rw [hr] at e
    cases e
    have hR : Reachable d' := .edited (junk := fun _ => .ok true) (op := .appendDoc p doc) (fun _ => ⟨_, rfl⟩) h hp (by
      show dropValue (appendDocumentNode p doc d) = _
      rw [hr]; rfl)
    unfold appendDocumentNode at hr
    rw [Out.bind_eq_ok] at hr
    obtain ⟨⟨i, d1⟩, h1, hr⟩ := hr
    have hpc := parseDoc_pc doc d _ h1
    dsimp only at hpc hr
    have := (reach_domI h).1.linked.two
    split at hr
    · cases hr; omega
    · rw [Out.bind_eq_ok] at hr
      obtain ⟨d2, h2, hr⟩ := hr
      cases hr
      have := append_rows h2 (reach_domI hR).1.linked (l₂ := []) hk
      rw [hpc] at this
      exact this

/-- Prepending an element records one parent, and the parent of every child there was once more. -/
theorem C108_prepend_partial (d : Dom) (h : Reachable d) (p : Nat) (hp : IsNode d p) (doc : DocNode) (id : Nat) (d' : Dom)
    (hr : prependDocumentNode p doc d = .ok (id, d')) : d'.pc.length = d.pc.length + 1 + (kids d p).length := by
  rcases C18_prependDocumentNode d h p hp doc with e | ⟨id', d'', e, hid, hk, _⟩
  · rw [hr] at e; cases e
  · rw [hr] at e
    cases e
    have hR : Reachable d' := .edited (junk := fun _ => .ok true) (op := .prependDoc p doc) (fun _ => ⟨_, rfl⟩) h hp (by
      show dropValue (prependDocumentNode p doc d) = _
      rw [hr]; rfl)
    unfold prependDocumentNode at hr
    rw [Out.bind_eq_ok] at hr
    obtain ⟨⟨i, d1⟩, h1, hr⟩ := hr
    have hpc := parseDoc_pc doc d _ h1
    dsimp only at hpc hr
    have := (reach_domI h).1.linked.two
    split at hr
    · cases hr; omega
    · rw [Out.bind_eq_ok] at hr
      obtain ⟨d2, h2, hr⟩ := hr
      cases hr
      have := prepend_rows h2 (reach_domI hR).1.linked (l₁ := []) hk
      rw [hpc] at this
      exact this

theorem isNode_grows {junk : Nat → Out Bool} (hj : Reads junk) {op : Op} {d d' : Dom} (ha : Allowed junk d op) (hr : runOp junk op d = .ok d') {p : Nat}
    (hp : IsNode d p) : IsNode d' p := by
  obtain ⟨k, m, h, _⟩ := runOp_count hj ha d' hr
  exact ⟨hp.1, by rw [h.nodes]; have := hp.2; omega⟩

/-- After `n` elements have been appended the table has `n` rows more. -/
theorem C108_appends (junk : Nat → Out Bool) (hj : Reads junk) (p : Nat) (doc : DocNode) (n : Nat) : ∀ (d : Dom) (_ : Reachable d) (_ : IsNode d p)
    (d' : Dom) (_ : runOps junk (List.replicate n (.appendDoc p doc)) d = .ok d'), d'.pc.length = d.pc.length + n := by
  induction n with
  | zero => intro d _ _ d' hr; cases hr; rfl
  | succ n ih =>
    intro d h hp d' hr
    rw [List.replicate_succ, runOps, Out.bind_eq_ok] at hr
    obtain ⟨d1, h1, hr⟩ := hr
    have ha : Allowed junk d (.appendDoc p doc) := hp
    have := ih d1 (.edited hj h ha h1) (isNode_grows hj ha h1 hp) d' hr
    change dropValue (appendDocumentNode p doc d) = _ at h1
    unfold dropValue at h1
    rw [Out.bind_eq_ok] at h1
    obtain ⟨⟨id, d2⟩, h2, h3⟩ := h1
    cases h3
    have := C108_append d h p hp doc id d1 h2
    omega

/-- After `n` elements have been prepended to a node with `k` children it has `n * k + n * (n + 1) / 2` rows more. -/
theorem C108_prepends_partial (junk : Nat → Out Bool) (hj : Reads junk) (p : Nat) (doc : DocNode) (n : Nat) : ∀ (d : Dom) (_ : Reachable d) (_ : IsNode d p)
    (d' : Dom) (_ : runOps junk (List.replicate n (.prependDoc p doc)) d = .ok d'),
    2 * d'.pc.length = 2 * d.pc.length + 2 * (n * (kids d p).length) + n * (n + 1) := by
  induction n with
  | zero => intro d _ _ d' hr; cases hr; simp
  | succ n ih =>
    intro d h hp d' hr
    rw [List.replicate_succ, runOps, Out.bind_eq_ok] at hr
    obtain ⟨d1, h1, hr⟩ := hr
    have ha : Allowed junk d (.prependDoc p doc) := hp
    have := ih d1 (.edited hj h ha h1) (isNode_grows hj ha h1 hp) d' hr
    change dropValue (prependDocumentNode p doc d) = _ at h1
    unfold dropValue at h1
    rw [Out.bind_eq_ok] at h1
    obtain ⟨⟨id, d2⟩, h2, h3⟩ := h1
    cases h3
    have h4 := C108_prepend_partial d h p hp doc id d1 h2
    rcases C18_prependDocumentNode d h p hp doc with e | ⟨id', d'', e, _, hk, _⟩
    · rw [h2] at e; cases e
    · rw [h2] at e
      cases e
      rw [hk, List.length_cons] at this
      generalize hK : (kids d p).length = K at *
      rw [this, h4]
      rw [Nat.add_mul n 1 K, Nat.mul_add n K 1]
      have e1 : (n + 1) * (n + 1 + 1) = n * (n + 1) + 2 * (n + 1) := by
        rw [show n + 1 + 1 = n + 2 from rfl, Nat.mul_comm (n + 1) (n + 2), Nat.add_mul]
      omega

/-- Nodes with many children can be made. -/
theorem many_kids (doc : DocNode) (hd : docCost doc = 1) (n : Nat) (hn : n ≤ 65533) :
    ∃ d, Reachable d ∧ IsNode d 1 ∧ (kids d 1).length = n ∧ Room d (65533 - n) := by
  induction n with
  | zero =>
    obtain ⟨d, h⟩ : ∃ d, createDom [] = .ok (some d) := ⟨_, rfl⟩
    refine ⟨d, .parsed h, ?_, ?_, (createDom_room (by simp)).elim h d rfl⟩
    · cases h; exact ⟨by decide, by decide⟩
    · cases h; decide
  | succ n ih =>
    obtain ⟨d, h, hp, hk, hr⟩ := ih (by omega)
    have hj : Reads fun _ => .ok true := fun _ => ⟨_, rfl⟩
    have ha : Allowed (fun _ => .ok true) d (.appendDoc 1 doc) := hp
    have hc : Op.cost (.appendDoc 1 doc) = 1 := hd
    obtain ⟨d', h1, h2, h3⟩ := C72_edits_succeed d h _ hj _ ha (by rw [hc]; exact hr.le (by omega)) (fun t => by simp [Op.html])
    refine ⟨d', h2, isNode_grows hj ha h1 hp, ?_, h3 _ (by rw [hc, show 1 + (65533 - (n + 1)) = 65533 - n by omega]; exact hr)⟩
    change dropValue (appendDocumentNode 1 doc d) = _ at h1
    unfold dropValue at h1
    rw [Out.bind_eq_ok] at h1
    obtain ⟨⟨id, d2⟩, h4, h5⟩ := h1
    cases h5
    rcases C17_appendDocumentNode d h 1 hp doc with e | ⟨id', d'', e, _, hk', _⟩
    · rw [h4] at e; cases e
    · rw [h4] at e
      cases e
      rw [hk', List.length_append, hk]; rfl

/-- As long as there are identifiers: a program can hold a DOM to which prepending one element adds more than `K` rows. -/
theorem C108_violated (K : Nat) (hK : K ≤ 65532) : ∃ (d d' : Dom) (id : Nat), Reachable d ∧ IsNode d 1 ∧
    prependDocumentNode 1 ⟨b!"p", false, [], []⟩ d = .ok (id, d') ∧ d.pc.length + K < d'.pc.length := by
  obtain ⟨d, h, hp, hk, hr⟩ := many_kids ⟨b!"p", false, [], []⟩ rfl K (by omega)
  have hj : Reads fun _ => .ok true := fun _ => ⟨_, rfl⟩
  have ha : Allowed (fun _ => .ok true) d (.prependDoc 1 ⟨b!"p", false, [], []⟩) := hp
  obtain ⟨d', h1, h2, h3⟩ := C72_edits_succeed d h _ hj _ ha (hr.le (by show 1 ≤ _; omega)) (fun t => by simp [Op.html])
  change dropValue (prependDocumentNode 1 _ d) = _ at h1
  unfold dropValue at h1
  rw [Out.bind_eq_ok] at h1
  obtain ⟨⟨id, d2⟩, h4, h5⟩ := h1
  cases h5
  refine ⟨d, d', id, h, hp, h4, ?_⟩
  rw [C108_prepend_partial d h 1 hp _ id d' h4, hk]
  omega

/-! ## Ten elements -/

/-- Ten appended elements take 10 rows, ten prepended ones 55. -/
example : okAnd (createDom []) (fun o => match o with
    | none => false
    | some d => okAnd (runOps (fun _ => .ok true) (List.replicate 10 (.appendDoc 1 ⟨b!"p", false, [], []⟩)) d) (fun d' => decide (d'.pc.length = d.pc.length + 10)) &&
        okAnd (runOps (fun _ => .ok true) (List.replicate 10 (.prependDoc 1 ⟨b!"p", false, [], []⟩)) d) (fun d' => decide (d'.pc.length = d.pc.length + 55)))
    = true := by decide +kernel

end Flo
