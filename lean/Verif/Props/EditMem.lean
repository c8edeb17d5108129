import Verif.Proofs.EditMemHistory
import Verif.Props.DomMem
/-!
# C88, C89: editing in the arena's memory

`MemHistory U M a d` (in `Spec/EditMem.lean`): a DOM was created in an arena, the caller took memory from the arena for itself, and
mutating functions were called; `M` is the structure the library works on, `d` the DOM the abstract model gives.
-/
namespace Flo
open Spec

theorem Spec.MemHistory.held {U : Int → Prop} {M : MDom} {a : Arena} {d : Dom} (h : MemHistory U M a d) : Held U M a d := by
  induction h with
  | created ha h0 hs hd hm =>
    rename_i a a' src s M d
    rcases (createDom_sim h0 ha.2.2 (hs.tok (K := fun _ => True) fun _ _ _ => trivial)).ok _ hd with ⟨h1, _⟩ | ⟨q, h1, hR⟩
    · rw [h1] at hm; cases hm
    · rw [h1] at hm
      cases hm
      cases hR with
      | dom h hb =>
        obtain ⟨own, h⟩ := h
        exact ⟨_, own, 0, h, fun y hy => ⟨trivial, hy⟩⟩
  | used h h1 h2 hm ih => exact ih.used h1 h2 hm
  | edited h hj ho ha e e' ih =>
    rcases ih.call ho hj e with ⟨h1, _⟩ | ⟨M', a', h1, h2, _⟩
    · rw [h1] at e'; cases e'
    · rw [h1] at e'; cases e'; exact h2

theorem dropValue_ok {x : Out (Nat × Dom)} {v : Nat} {d : Dom} (h : x = .ok (v, d)) : dropValue x = .ok d := by rw [h]; rfl

/-- C88: throughout such a history the tables in memory are those of the DOM, which is one a program can hold.  What is written to
memory that is free makes no difference. -/
theorem C88_history (U : Int → Prop) (M : MDom) (a : Arena) (d : Dom) (h : MemHistory U M a d) :
    Reachable d ∧ ∀ mem', SameButFree a a.mem mem' → InMemory mem' M d := by
  refine ⟨?_, fun mem' hm => ?_⟩
  · induction h with
    | created _ _ _ hd _ => exact .parsed hd
    | used _ _ _ _ ih => exact ih
    | edited _ hj _ ha e _ ih => exact .edited hj ih ha (by rw [runOp_call]; exact dropValue_ok e)
  · obtain ⟨V, own, x, hr, _⟩ := h.held
    exact (hr.rewrite hm).inMemory

/-- C88: a call on memory either jumps for lack of memory or does what it does on the abstract DOM: it returns the same value, and
the tables in memory are those of the new DOM.  The arena's end stays, memory is only taken, and no byte of the caller's memory
changes. -/
theorem C88_edit_in_memory (U : Int → Prop) (M : MDom) (a : Arena) (d : Dom) (h : MemHistory U M a d) (junk : Nat → Out Bool) (hj : Reads junk)
    (op : MOp) (ho : op.Given U) (v : Nat) (d' : Dom) (hr : callOp junk (op.read a.mem) d = .ok (v, d')) :
    memCall junk op M a = .longjmp ∨ ∃ M' a', memCall junk op M a = .ok (v, M', a') ∧ InMemory a'.mem M' d' ∧
      a.beg ≤ a'.beg ∧ a'.beg ≤ a'.stop ∧ a'.stop = a.stop ∧ ∀ y, U y → a'.mem y = a.mem y := by
  rcases h.held.call ho hj hr with ⟨h1, _⟩ | ⟨M', a', h1, h2, h3, h4, _, h5⟩
  · exact Or.inl h1
  · obtain ⟨V, own, x, hr, _⟩ := h2
    exact Or.inr ⟨M', a', h1, hr.inMemory, h3, hr.top, h4, h5⟩

/-- C88: where the abstract function jumps for lack of identifiers, the call on memory jumps too. -/
theorem C88_jump_in_memory (U : Int → Prop) (M : MDom) (a : Arena) (d : Dom) (h : MemHistory U M a d) (junk : Nat → Out Bool) (hj : Reads junk)
    (op : MOp) (ho : op.Given U) (hr : callOp junk (op.read a.mem) d = .longjmp) : memCall junk op M a = .longjmp := by
  obtain ⟨V, own, h1, hU, hm, _⟩ := h.held.now
  have := call_sim h1 (ho.mono hU) hj
  rw [hm] at this
  exact this.jump hr

/-- C88: an allowed call whose fragment (if it takes one) does not end in a quote returns or jumps; it never leaves the tables or
the arena, reads a string that is gone, or runs forever. -/
theorem C88_edits_are_safe (U : Int → Prop) (M : MDom) (a : Arena) (d : Dom) (h : MemHistory U M a d) (junk : Nat → Out Bool) (hj : Reads junk)
    (op : MOp) (ho : op.Given U) (ha : Allowed junk d (op.read a.mem))
    (hq : ∀ t, Op.html (op.read a.mem) ≠ t ++ [34] ∧ Op.html (op.read a.mem) ≠ t ++ [39]) :
    memCall junk op M a = .longjmp ∨ ∃ v d' M' a', callOp junk (op.read a.mem) d = .ok (v, d') ∧
      memCall junk op M a = .ok (v, M', a') ∧ MemHistory U M' a' d' := by
  obtain ⟨h2, h3⟩ := C14_edits_are_safe_partial d (C88_history U M a d h).1 junk hj _ ha
  rw [runOp_call] at h2 h3
  cases hx : callOp junk (op.read a.mem) d with
  | ok r =>
    obtain ⟨v, d'⟩ := r
    rcases C88_edit_in_memory U M a d h junk hj op ho v d' hx with h4 | ⟨M', a', h4, _⟩
    · exact Or.inl h4
    · exact Or.inr ⟨v, d', M', a', rfl, h4, h.edited hj ho ha hx h4⟩
  | longjmp => exact Or.inl (C88_jump_in_memory U M a d h junk hj op ho hx)
  | hang => rw [hx] at h2; exact absurd rfl h2
  | ub w =>
    rw [hx] at h3
    obtain ⟨_, t, ht⟩ := h3 w rfl
    rcases ht with ht | ht
    · exact absurd ht (hq t).1
    · exact absurd ht (hq t).2

/-- C89: the memory that is enough for a call, and that it takes at most, is linear in the size of the DOM and of the strings. -/
theorem C89_memory_is_linear (U : Int → Prop) (M : MDom) (a : Arena) (d : Dom) (h : MemHistory U M a d) (junk : Nat → Out Bool) (hj : Reads junk)
    (op : MOp) (ho : op.Given U) (v : Nat) (d' : Dom) (hr : callOp junk (op.read a.mem) d = .ok (v, d')) :
    (3 * domBytes d + 1000 * op.size + 1000 ≤ a.stop - a.beg → memCall junk op M a ≠ .longjmp) ∧
    ∀ v' M' a', memCall junk op M a = .ok (v', M', a') → a'.beg - a.beg ≤ 3 * domBytes d + 1000 * op.size + 1000 := by
  rcases h.held.call ho hj hr with ⟨h1, hl⟩ | ⟨M', a', h1, h2, h3, h4, h5, h6⟩
  · exact ⟨fun hroom => by omega, fun v' M' a' e => (by rw [h1] at e; cases e)⟩
  · refine ⟨fun _ e => (by rw [h1] at e; cases e), fun v2 M2 a2 e => ?_⟩
    rw [h1] at e
    cases e
    omega

/-- C89: with that memory and with identifiers left, an allowed call succeeds and the history goes on. -/
theorem C89_edits_succeed (U : Int → Prop) (M : MDom) (a : Arena) (d : Dom) (h : MemHistory U M a d) (junk : Nat → Out Bool) (hj : Reads junk)
    (op : MOp) (ho : op.Given U) (ha : Allowed junk d (op.read a.mem)) (hi : Room d (op.read a.mem).cost)
    (hq : ∀ t, Op.html (op.read a.mem) ≠ t ++ [34] ∧ Op.html (op.read a.mem) ≠ t ++ [39])
    (hroom : 3 * domBytes d + 1000 * op.size + 1000 ≤ a.stop - a.beg) :
    ∃ v d' M' a', callOp junk (op.read a.mem) d = .ok (v, d') ∧ memCall junk op M a = .ok (v, M', a') ∧ MemHistory U M' a' d' := by
  obtain ⟨d1, h1, _⟩ := C72_edits_succeed d (C88_history U M a d h).1 junk hj _ ha hi hq
  rw [runOp_call] at h1
  cases hx : callOp junk (op.read a.mem) d with
  | ok r =>
    obtain ⟨v, d'⟩ := r
    rcases C88_edit_in_memory U M a d h junk hj op ho v d' hx with h4 | ⟨M', a', h4, _⟩
    · exact absurd h4 ((C89_memory_is_linear U M a d h junk hj op ho v d' hx).1 hroom)
    · exact ⟨v, d', M', a', rfl, h4, h.edited hj ho ha hx h4⟩
  | longjmp => rw [hx] at h1; cases h1
  | hang => rw [hx] at h1; cases h1
  | ub w => rw [hx] at h1; cases h1

/-! ## An example -/

/-- After the parse of `<p a=b c>x  y<i/></p>` the caller puts a string into the arena. -/
def withString (a : Arena) : Arena := { a with beg := a.beg + 3, mem := memWrite a.beg b!"new" a.mem }

/-- The element `i` is then replaced by that text, which goes to the end of the text before it, and the string also becomes the key
of an attribute of `p`. -/
def editOps (a : Arena) : List MOp := [.replaceText 4 ⟨a.beg, 3⟩, .add 2 ⟨a.beg, 3⟩ ⟨1000, 2⟩]

theorem withString_given (a : Arena) (h0 : 0 < a.beg) (h1 : a.beg + 3 < 2 ^ 62) (U : Int → Prop) (hU : ∀ y, y < 2000 → U y) :
    ∀ op ∈ editOps a, op.Given fun y => U y ∨ (a.beg ≤ y ∧ y < a.beg + 3) := by
  intro op hop
  simp only [editOps, List.mem_cons, List.not_mem_nil, or_false] at hop
  rcases hop with rfl | rfl
  · refine ⟨(by show (4 : Nat) < 65536; omega), ?_, ?_, ?_⟩ <;> intro s hs <;> simp only [MOp.strings, List.mem_cons, List.not_mem_nil, or_false] at hs <;> subst hs
    · exact le_of_lt h0
    · show a.beg + 3 ≤ _; omega
    · intro y h2 h3; exact Or.inr ⟨h2, h3⟩
  · refine ⟨(by show (2 : Nat) < 65536; omega), ?_, ?_, ?_⟩ <;> intro s hs <;> simp only [MOp.strings, List.mem_cons, List.not_mem_nil, or_false] at hs <;>
      rcases hs with rfl | rfl
    · exact le_of_lt h0
    · show (0 : Int) ≤ 1000; omega
    · show a.beg + 3 ≤ _; omega
    · show (1000 : Int) + 2 ≤ _; omega
    · intro y h2 h3; exact Or.inr ⟨h2, h3⟩
    · intro y h2 h3; refine Or.inl (hU y ?_); change y < 1000 + 2 at h3; omega

def noJunk : Nat → Out Bool := fun _ => .ok false

theorem noJunk_reads : Reads noJunk := fun _ => ⟨false, rfl⟩

/-- The example as one run: the final structure, arena and DOM. -/
def editRun (M : MDom) (a : Arena) (d : Dom) : List MOp → Out (MDom × Arena × Dom)
  | [] => .ok (M, a, d)
  | op :: ops => do
    let (v, d) ← callOp noJunk (op.read a.mem) d
    let (v', M, a) ← memCall noJunk op M a
    if v = v' then editRun M a d ops else .hang

set_option maxRecDepth 8000 in
theorem editRun_ex : ∃ d M a, createDom b!"<p a=b c>x  y<i/></p>" = .ok (some d) ∧
    memCreateDom parseSrc (parseArena 20000) = .ok (some M, a) ∧ 2001 ≤ a.beg ∧ a.beg + 3 ≤ a.stop ∧ a.stop = 22001 ∧
    2 < d.nodes.length ∧ 4 ∈ kids d 2 ∧
    okAnd (editRun M (withString a) d (editOps a)) (fun r => decide (textOf r.2.2 3 = some b!"x y new" ∧ kids r.2.2 2 = [3] ∧
      stringAt r.2.1.mem (entryAddr r.1.nodes 24 3 + 8) = b!"x y new" ∧
      (entries r.1.props 6).map (tripleAt r.2.1.mem) = [⟨2, 1, 1⟩, ⟨2, 2, 2⟩] ∧
      (entries r.1.valReg 16).map (stringAt r.2.1.mem) = [[], b!"b", b!"<p"] ∧ 2 < r.2.2.nodes.length)) = true := by
  have h : someAnd (createDom b!"<p a=b c>x  y<i/></p>") (fun d => okAnd (memCreateDom parseSrc (parseArena 20000)) fun r =>
      match r.1 with
      | none => false
      | some M => decide (2001 ≤ r.2.beg ∧ r.2.beg + 3 ≤ r.2.stop ∧ r.2.stop = 22001 ∧ 2 < d.nodes.length ∧ 4 ∈ kids d 2) &&
        okAnd (editRun M (withString r.2) d (editOps r.2)) (fun r => decide (textOf r.2.2 3 = some b!"x y new" ∧ kids r.2.2 2 = [3] ∧
      stringAt r.2.1.mem (entryAddr r.1.nodes 24 3 + 8) = b!"x y new" ∧
      (entries r.1.props 6).map (tripleAt r.2.1.mem) = [⟨2, 1, 1⟩, ⟨2, 2, 2⟩] ∧
      (entries r.1.valReg 16).map (stringAt r.2.1.mem) = [[], b!"b", b!"<p"] ∧ 2 < r.2.2.nodes.length))) = true := by
    decide +kernel
  obtain ⟨d, h1, h2⟩ := someAnd_ex h
  obtain ⟨⟨q, a⟩, h3, h4⟩ := okAnd_ex h2
  cases q with
  | none => cases h4
  | some M =>
    dsimp only at h4
    rw [Bool.and_eq_true] at h4
    obtain ⟨g1, g2, g3, g4, g5⟩ := of_decide_eq_true h4.1
    exact ⟨d, M, a, h1, h3, g1, g2, g3, g4, g5, h4.2⟩

/-- The example is a history: a parse, the caller's string, and two edits, one of a node with a parent and one of an element. -/
theorem editRun_history : ∃ U M a d, MemHistory U M a d ∧ textOf d 3 = some b!"x y new" ∧ kids d 2 = [3] ∧
    stringAt a.mem (entryAddr M.nodes 24 3 + 8) = b!"x y new" ∧ (entries M.props 6).map (tripleAt a.mem) = [⟨2, 1, 1⟩, ⟨2, 2, 2⟩] := by
  obtain ⟨d, M, a, h1, h2, g1, g2, g3, g4, g5, h3⟩ := editRun_ex
  have hA : ArenaOK (parseArena 20000) := by refine ⟨?_, ?_, ?_⟩ <;> simp [parseArena]
  have H1 := MemHistory.created hA (by simp [parseArena]) (parseSrc_at 20000) h1 h2
  have H2 := H1.used (b := a.beg + 3) (mem := (withString a).mem) (by omega) g2 fun y hy => by
    show memWrite a.beg b!"new" a.mem y = _
    refine memWrite_out ?_
    show _ ∨ a.beg + 3 ≤ y
    omega
  have hG := withString_given a (by omega) (by omega) (fun y => y < (parseArena 20000).beg ∨ (parseArena 20000).stop ≤ y)
    fun y hy => Or.inl (by show y < 2001; omega)
  have hG1 := hG _ (by simp [editOps] : MOp.replaceText 4 ⟨a.beg, 3⟩ ∈ editOps a)
  have hG2 := hG _ (by simp [editOps] : MOp.add 2 ⟨a.beg, 3⟩ ⟨1000, 2⟩ ∈ editOps a)
  obtain ⟨r, h4, h5⟩ := okAnd_ex h3
  have h5 := of_decide_eq_true h5
  unfold editOps at h4
  simp only [editRun] at h4
  cases e1 : callOp noJunk (MOp.read (withString a).mem (.replaceText 4 ⟨a.beg, 3⟩)) d with
  | ok q1 =>
    obtain ⟨v1, d1⟩ := q1
    rw [e1, Out.bind_ok] at h4
    dsimp only at h4
    cases f1 : memCall noJunk (.replaceText 4 ⟨a.beg, 3⟩) M (withString a) with
    | ok q2 =>
      obtain ⟨w1, M1, a1⟩ := q2
      rw [f1, Out.bind_ok] at h4
      dsimp only at h4
      split at h4
      · have H3 := H2.edited noJunk_reads hG1 ⟨2, g5⟩ e1 f1
        cases e2 : callOp noJunk (MOp.read a1.mem (.add 2 ⟨a.beg, 3⟩ ⟨1000, 2⟩)) d1 with
        | ok q3 =>
          obtain ⟨v2, d2⟩ := q3
          rw [e2, Out.bind_ok] at h4
          dsimp only at h4
          cases f2 : memCall noJunk (.add 2 ⟨a.beg, 3⟩ ⟨1000, 2⟩) M1 a1 with
          | ok q4 =>
            obtain ⟨w2, M2, a2⟩ := q4
            rw [f2, Out.bind_ok] at h4
            dsimp only at h4
            split at h4
            · cases h4
              have hlen : 2 < d1.nodes.length := by
                have hd := addProperty_keeps 2 (str a1.mem ⟨a.beg, 3⟩) (str a1.mem ⟨1000, 2⟩) d1
                have : addProperty 2 (str a1.mem ⟨a.beg, 3⟩) (str a1.mem ⟨1000, 2⟩) d1 = .ok d2 := by
                  have := dropValue_ok e2
                  rw [← runOp_call] at this
                  exact this
                rw [← (hd d2 this).1]
                exact h5.2.2.2.2.2
              exact ⟨_, M2, a2, d2, H3.edited noJunk_reads hG2 ⟨Nat.succ_ne_zero 1, hlen⟩ e2 f2, h5.1, h5.2.1, h5.2.2.1, h5.2.2.2.1⟩
            · cases h4
          | longjmp => rw [f2] at h4; cases h4
          | ub w => rw [f2] at h4; cases h4
          | hang => rw [f2] at h4; cases h4
        | longjmp => rw [e2] at h4; cases h4
        | ub w => rw [e2] at h4; cases h4
        | hang => rw [e2] at h4; cases h4
      · cases h4
    | longjmp => rw [f1] at h4; cases h4
    | ub w => rw [f1] at h4; cases h4
    | hang => rw [f1] at h4; cases h4
  | longjmp => rw [e1] at h4; cases h4
  | ub w => rw [e1] at h4; cases h4
  | hang => rw [e1] at h4; cases h4

set_option maxRecDepth 8000 in
/-- In an arena that is too small the edit jumps. -/
example : okAnd (memCreateDom parseSrc (parseArena 8000)) (fun r =>
      match r.1 with
      | none => false
      | some M => jumps (memCall noJunk (.replaceText 4 ⟨1000, 21⟩) M { r.2 with stop := r.2.beg + 15 }) &&
        jumps (memCall noJunk (.appendText 2 ⟨1000, 21⟩) M { r.2 with stop := r.2.beg + 15 })) = true := by
  decide +kernel

end Flo
