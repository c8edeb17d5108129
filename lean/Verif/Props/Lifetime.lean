import Verif.Proofs.Lifetime
import Verif.Props.ParentRows
/-!
# Removing nodes gives nothing back (C119)
-/
namespace Flo
open Spec

/-- No call lowers the number of identifiers in use; a call that is handed an element or a text takes exactly one, also if
the text is merged into another one and also if the call replaces a node. -/
theorem C119_spends (d : Dom) (junk : Nat → Out Bool) (hj : Reads junk) (op : Op) (ha : Allowed junk d op) (d' : Dom)
    (hr : runOp junk op d = .ok d') :
    d.nodes.length ≤ d'.nodes.length ∧ (op.makesNode = true → d'.nodes.length = d.nodes.length + 1) := by
  obtain ⟨k, m, h, _⟩ := runOp_count hj ha d' hr
  exact ⟨by rw [h.nodes]; omega, fun hm => makesNode_count hm d' hr⟩

/-- A document has a limited life: whatever is removed in between, no session with more node-making calls than the
identifiers that are left (at most 65533) comes to its end. -/
theorem C119_lifetime (junk : Nat → Out Bool) (hj : Reads junk) : ∀ (ops : List Op) (d : Dom) (_ : Reachable d)
    (_ : AllAllowed junk ops d) (d' : Dom) (_ : runOps junk ops d = .ok d'),
    d.nodes.length + ops.countP Op.makesNode ≤ 65535 := by
  intro ops
  induction ops with
  | nil => intro d h _ _ _; simpa using (reach_domI h).1.cap
  | cons op ops ih =>
    intro d h ha d' hr
    rw [runOps, Out.bind_eq_ok] at hr
    obtain ⟨d1, h1, hr⟩ := hr
    have h2 := ih d1 (.edited hj h ha.1 h1) (ha.2 d1 h1) d' hr
    obtain ⟨h3, h4⟩ := C119_spends d junk hj op ha.1 d1 h1
    rw [List.countP_cons]
    split
    · rename_i hm; have := h4 hm; omega
    · omega

theorem addRemove_add (doc : DocNode) : ∀ (a b k : Nat), addRemove doc k (a + b) = addRemove doc k a ++ addRemove doc (k + a) b := by
  intro a
  induction a with
  | zero => intro b k; simp [addRemove]
  | succ a ih =>
    intro b k
    rw [show a + 1 + b = (a + b) + 1 by omega, addRemove, addRemove, ih, show k + 1 + a = k + (a + 1) by omega]
    rfl

theorem runOps_app (junk : Nat → Out Bool) : ∀ (a b : List Op) (d : Dom),
    runOps junk (a ++ b) d = runOps junk a d >>= runOps junk b := by
  intro a
  induction a with
  | nil => intro b d; rfl
  | cons op a ih =>
    intro b d
    rw [List.cons_append, runOps, runOps]
    cases runOp junk op d with
    | ok d1 => exact ih b d1
    | longjmp => rfl
    | ub w => rfl
    | hang => rfl

/-- One element appended to the root and removed again. -/
theorem addRemove_one {doc : DocNode} (hd : docCost doc = 1) {junk : Nat → Out Bool} (hj : Reads junk) {d : Dom} (h : Reachable d)
    (hk : kids d 1 = []) {c : Nat} (hr : Room d (1 + c)) :
    ∃ d', runOps junk [.appendDoc 1 doc, .removeNode d.nodes.length] d = .ok d' ∧ Reachable d' ∧ kids d' 1 = [] ∧ Room d' c ∧
      d'.nodes.length = d.nodes.length + 1 := by
  have h2 := (reach_domI h).1.linked.two
  have hp : IsNode d 1 := ⟨by omega, by omega⟩
  have ha : Allowed junk d (.appendDoc 1 doc) := hp
  have hc : Op.cost (.appendDoc 1 doc) = 1 := hd
  obtain ⟨d1, h1, r1, m1⟩ := C72_edits_succeed d h _ hj _ ha (by rw [hc]; exact hr.le (by omega)) (fun t => by simp [Op.html])
  have n1 := (C119_spends d junk hj _ ha d1 h1).2 rfl
  have hroom1 : Room d1 c := m1 _ (by rw [hc]; exact hr)
  have hk1 : kids d1 1 = [d.nodes.length] := by
    have h1' := h1
    change dropValue (appendDocumentNode 1 doc d) = _ at h1'
    unfold dropValue at h1'
    rw [Out.bind_eq_ok] at h1'
    obtain ⟨⟨id, d2⟩, h4, h5⟩ := h1'
    cases h5
    rcases C17_appendDocumentNode d h 1 hp doc with e | ⟨id', d'', e, e2, hk', _⟩
    · rw [h4] at e; cases e
    · rw [h4] at e
      cases e
      rw [hk', hk, e2]; rfl
  have hpar : HasParent d1 d.nodes.length := ⟨1, by rw [hk1]; simp⟩
  have ha2 : Allowed junk d1 (.removeNode d.nodes.length) := hpar
  obtain ⟨d2, e2, _, h21, _⟩ := C21_removeNode d1 r1 _ hpar
  have hrun : runOp junk (.removeNode d.nodes.length) d1 = .ok d2 := e2
  have hi := (reach_domI r1).1
  refine ⟨d2, by simp only [runOps, h1, Out.bind_ok, hrun], .edited hj r1 ha2 hrun, ?_, ?_, ?_⟩
  · rw [h21 1 ?_, hk1]
    · simp
    · intro hm
      have hlt := hi.linked.range 1 d.nodes.length (by rw [hk1]; simp)
      rw [preorder_kids hi (p := d.nodes.length) ⟨by omega, hlt.2.2⟩] at hm
      have := pre_ge hi.linked.up _ (by omega) _ hm
      omega
  · have := (runOp_room hj (.removeNode d.nodes.length) (d := d1) (k := c) (hroom1.le (by
      show 0 + c ≤ c; omega))).elim hrun
    exact this
  · have := (removeNode_count _ _ d2 e2).nodes
    omega

/-- `n` times over, as long as identifiers last. -/
theorem addRemove_many {doc : DocNode} (hd : docCost doc = 1) {junk : Nat → Out Bool} (hj : Reads junk) : ∀ (n : Nat) (d : Dom),
    Reachable d → kids d 1 = [] → ∀ (c : Nat), Room d (n + c) →
    ∃ d', runOps junk (addRemove doc d.nodes.length n) d = .ok d' ∧ Reachable d' ∧ kids d' 1 = [] ∧ Room d' c ∧
      d'.nodes.length = d.nodes.length + n := by
  intro n
  induction n with
  | zero => intro d h hk c hr; exact ⟨d, rfl, h, hk, hr.le (by omega), rfl⟩
  | succ n ih =>
    intro d h hk c hr
    obtain ⟨d1, h1, r1, k1, m1, n1⟩ := addRemove_one hd hj h hk (c := n + c) (hr.le (by omega))
    obtain ⟨d2, h2, r2, k2, m2, n2⟩ := ih d1 r1 k1 c m1
    refine ⟨d2, ?_, r2, k2, m2, by omega⟩
    rw [show addRemove doc d.nodes.length (n + 1) = [.appendDoc 1 doc, .removeNode d.nodes.length] ++
      addRemove doc (d.nodes.length + 1) n from rfl, runOps_app, h1, Out.bind_ok, ← n1]
    exact h2

/-- The property fails: a document to which one element is added and from which it is removed again, over and over, is as
empty after each round as before, and yet the 65534th round takes the failure exit. -/
theorem C119_violated (junk : Nat → Out Bool) (hj : Reads junk) (n : Nat) : ∃ d, createDom [] = .ok (some d) ∧ kids d 1 = [] ∧
    (n ≤ 65533 → ∃ d', runOps junk (addRemove ⟨b!"p", true, [], []⟩ 2 n) d = .ok d' ∧ kids d' 1 = []) ∧
    (65533 < n → runOps junk (addRemove ⟨b!"p", true, [], []⟩ 2 n) d = .longjmp) := by
  obtain ⟨d, h⟩ : ∃ d, createDom [] = .ok (some d) := ⟨_, rfl⟩
  have hroom : Room d 65533 := (createDom_room (by simp)).elim h d rfl
  have hk : kids d 1 = [] := by cases h; decide
  have hn : d.nodes.length = 2 := by cases h; decide
  refine ⟨d, h, hk, fun hle => ?_, fun hlt => ?_⟩
  · obtain ⟨d', h1, _, h2, _⟩ := addRemove_many (doc := ⟨b!"p", true, [], []⟩) rfl hj n d (.parsed h) hk 0 (hroom.le (by omega))
    rw [hn] at h1
    exact ⟨d', h1, h2⟩
  · obtain ⟨d', h1, h2, h3, _, h4⟩ := addRemove_many (doc := ⟨b!"p", true, [], []⟩) rfl hj 65533 d (.parsed h) hk 0 (hroom.le (by omega))
    rw [hn] at h1 h4
    obtain ⟨k, rfl⟩ : ∃ k, n = 65533 + (k + 1) := ⟨n - 65534, by omega⟩
    rw [addRemove_add, runOps_app, h1, Out.bind_ok, addRemove, runOps]
    have hp : IsNode d' 1 := ⟨by omega, by omega⟩
    have : runOp junk (.appendDoc rootID ⟨b!"p", true, [], []⟩) d' = .longjmp := by
      show dropValue (appendDocumentNode 1 _ d') = _
      rcases C17_appendDocumentNode d' h2 1 hp ⟨b!"p", true, [], []⟩ with e | ⟨id, d2, e, _⟩
      · rw [e]; rfl
      · exfalso
        have ha : Allowed junk d' (.appendDoc 1 ⟨b!"p", true, [], []⟩) := hp
        have hr : runOp junk (.appendDoc 1 ⟨b!"p", true, [], []⟩) d' = .ok d2 := by
          show dropValue (appendDocumentNode 1 _ d') = _
          rw [e]; rfl
        have a := (C119_spends d' junk hj _ ha d2 hr).2 rfl
        have b := (reach_domI (.edited hj h2 ha hr)).1.cap
        omega
    rw [this]
    rfl

/-- non-vacuity: such sessions are in order. -/
example : ∃ d, createDom [] = .ok (some d) ∧
    okAnd (runOps (fun _ => .ok false) (addRemove ⟨b!"p", true, [], []⟩ 2 3) d) (fun d' => decide (d'.nodes.length = 5 ∧ kids d' 1 = [])) =
      true := someAnd_ex (by decide +kernel)

end Flo
