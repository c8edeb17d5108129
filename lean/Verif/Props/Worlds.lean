import Verif.Proofs.Worlds
import Verif.Props.EditMem
import Verif.Props.QueryMem
/-!
# C90, C91, C92: several DOMs in one arena

`World U l a` (in `Spec/Worlds.lean`): a program has taken memory from an arena, parsed, duplicated and edited; `l` lists its DOMs.
-/
namespace Flo
open Spec

theorem entries_norm (s : Arr) (size : Int) : entries s.norm size = entries s size := by
  unfold Arr.norm
  split
  · next h => unfold entries; rw [h]; rfl
  · rfl

theorem inMemory_norm {mem : Int → UInt8} {M : MDom} {d : Dom} (h : InMemory mem M.norm d) : InMemory mem M d where
  count := by rw [← h.count]; exact (Arr.norm_len _).symm
  nodes := by
    intro i nd hnd
    have h1 := h.nodes i nd hnd
    have hc := h.count
    have hi := (List.getElem?_eq_some_iff.1 hnd).1
    have e : M.norm.nodes = M.nodes := by
      show M.nodes.norm = _
      have : M.nodes.norm.len = d.nodes.length := hc
      rw [Arr.norm_len] at this
      unfold Arr.norm
      rw [if_neg (by omega)]
    rw [e] at h1
    exact h1
  firstChilds := by rw [← h.firstChilds]; exact congrArg _ (entries_norm _ _).symm
  childs := by rw [← h.childs]; exact congrArg _ (entries_norm _ _).symm
  nexts := by rw [← h.nexts]; exact congrArg _ (entries_norm _ _).symm
  boolProps := by rw [← h.boolProps]; exact congrArg _ (entries_norm _ _).symm
  props := by rw [← h.props]; exact congrArg _ (entries_norm _ _).symm
  tagNames := by rw [← h.tagNames]; exact congrArg _ (entries_norm _ _).symm
  boolNames := by rw [← h.boolNames]; exact congrArg _ (entries_norm _ _).symm
  keyNames := by rw [← h.keyNames]; exact congrArg _ (entries_norm _ _).symm
  valNames := by rw [← h.valNames]; exact congrArg _ (entries_norm _ _).symm
  findTag := h.findTag
  findBool := h.findBool
  findKey := h.findKey
  findVal := h.findVal

theorem Shared.inMemory {U : Int → Prop} {l : List (MDom × Dom)} {a : Arena} {own : Nat → Int → Owner} (h : Shared U l a own) {i : Nat} {M : MDom}
    {d : Dom} (hi : l[i]? = some (M, d)) {mem' : Int → UInt8} (hm : SameButFree a a.mem mem') : InMemory mem' M d := by
  obtain ⟨lo, hr⟩ := h.rep i M d hi
  exact inMemory_norm (hr.rewrite hm).inMemory

/-! ## C91: DOMs in one arena do not disturb each other -/

/-- C91: at any time every DOM of the program is in memory as it should be, and is one a program can hold.  What is written to memory
that is free makes no difference. -/
theorem C91_all_doms_in_memory (U : Int → Prop) (l : List (MDom × Dom)) (a : Arena) (h : World U l a) (i : Nat) (M : MDom) (d : Dom)
    (hi : l[i]? = some (M, d)) : Reachable d ∧ ∀ mem', SameButFree a a.mem mem' → InMemory mem' M d := by
  obtain ⟨⟨own, hs⟩, hR⟩ := h.shared
  exact ⟨hR _ (List.mem_of_getElem? hi), fun mem' hm => hs.inMemory hi hm⟩

/-- C91: an edit of one DOM, on memory, jumps or returns what it returns on the abstract DOM; then that DOM is the new one, all others
are in memory as before, the memory of the program is unchanged, memory is only taken and the arena's end stays. -/
theorem C91_edit_one (U : Int → Prop) (l : List (MDom × Dom)) (a : Arena) (h : World U l a) (i : Nat) (M : MDom) (d : Dom)
    (hi : l[i]? = some (M, d)) (hg : Growable M) (junk : Nat → Out Bool) (hj : Reads junk) (op : MOp) (ho : op.Given U) (v : Nat) (d' : Dom)
    (hr : callOp junk (op.read a.mem) d = .ok (v, d')) :
    memCall junk op M a = .longjmp ∨ ∃ M' a', memCall junk op M a = .ok (v, M', a') ∧ InMemory a'.mem M' d' ∧ Growable M' ∧
      (∀ (j : Nat) M1 d1, j ≠ i → l[j]? = some (M1, d1) → InMemory a'.mem M1 d1) ∧
      a.beg ≤ a'.beg ∧ a'.beg ≤ a'.stop ∧ a'.stop = a.stop ∧ ∀ y, U y → a'.mem y = a.mem y := by
  obtain ⟨⟨own, hs⟩, _⟩ := h.shared
  have hil := (List.getElem?_eq_some_iff.1 hi).1
  rcases (hs.call hi hg ho hj).1 v d' hr with ⟨e, _⟩ | ⟨M', a', own', e, g1, g2, g3, g4, _, g5, g6⟩
  · exact Or.inl e
  · refine Or.inr ⟨M', a', e, g6.inMemory (List.getElem?_set_self hil) fun _ _ => rfl, g5, fun j M1 d1 hj hl => ?_, g1, g2, g3, g4⟩
    exact g6.inMemory (by rw [List.getElem?_set_ne (Ne.symm hj)]; exact hl) fun _ _ => rfl

/-- C91: where the abstract edit jumps for lack of identifiers, the edit on memory jumps too. -/
theorem C91_jump_in_memory (U : Int → Prop) (l : List (MDom × Dom)) (a : Arena) (h : World U l a) (i : Nat) (M : MDom) (d : Dom)
    (hi : l[i]? = some (M, d)) (hg : Growable M) (junk : Nat → Out Bool) (hj : Reads junk) (op : MOp) (ho : op.Given U)
    (hr : callOp junk (op.read a.mem) d = .longjmp) : memCall junk op M a = .longjmp := by
  obtain ⟨⟨own, hs⟩, _⟩ := h.shared
  exact (hs.call hi hg ho hj).2 hr

/-- C91: an allowed edit whose fragment (if it takes one) does not end in a quote returns or jumps; it never leaves the tables or the
arena, reads a string that is gone, or runs forever.  The program goes on in the world with the edited DOM. -/
theorem C91_edits_are_safe (U : Int → Prop) (l : List (MDom × Dom)) (a : Arena) (h : World U l a) (i : Nat) (M : MDom) (d : Dom)
    (hi : l[i]? = some (M, d)) (hg : Growable M) (junk : Nat → Out Bool) (hj : Reads junk) (op : MOp) (ho : op.Given U)
    (ha : Allowed junk d (op.read a.mem)) (hq : ∀ t, Op.html (op.read a.mem) ≠ t ++ [34] ∧ Op.html (op.read a.mem) ≠ t ++ [39]) :
    memCall junk op M a = .longjmp ∨ ∃ v d' M' a', callOp junk (op.read a.mem) d = .ok (v, d') ∧
      memCall junk op M a = .ok (v, M', a') ∧ World U (l.set i (M', d')) a' := by
  obtain ⟨h2, h3⟩ := C14_edits_are_safe_partial d (C91_all_doms_in_memory U l a h i M d hi).1 junk hj _ ha
  rw [runOp_call] at h2 h3
  cases hx : callOp junk (op.read a.mem) d with
  | ok r =>
    obtain ⟨v, d'⟩ := r
    rcases C91_edit_one U l a h i M d hi hg junk hj op ho v d' hx with h4 | ⟨M', a', h4, _⟩
    · exact Or.inl h4
    · exact Or.inr ⟨v, d', M', a', rfl, h4, h.edited hi hg hj ho ha hx h4⟩
  | longjmp => exact Or.inl (C91_jump_in_memory U l a h i M d hi hg junk hj op ho hx)
  | hang => rw [hx] at h2; exact absurd rfl h2
  | ub w =>
    rw [hx] at h3
    obtain ⟨_, t, ht⟩ := h3 w rfl
    rcases ht with ht | ht
    · exact absurd ht (hq t).1
    · exact absurd ht (hq t).2

/-- C91: parsing one more source jumps or writes only free memory and leaves all DOMs as they are. -/
theorem C91_parse_beside (U : Int → Prop) (l : List (MDom × Dom)) (a : Arena) (h : World U l a) (src : MStr) (h1 : 0 ≤ src.ptr)
    (h2 : src.ptr + src.len ≤ 2 ^ 62) (h3 : ∀ y, src.ptr ≤ y → y < src.ptr + src.len → U y) (r : Option Dom)
    (hr : createDom (str a.mem src) = .ok r) :
    memCreateDom src a = .longjmp ∨ ∃ q a', memCreateDom src a = .ok (q, a') ∧ (q = none ↔ r = none) ∧
      (∀ M d, q = some M → r = some d → InMemory a'.mem M d ∧ Growable M) ∧
      (∀ (j : Nat) M1 d1, l[j]? = some (M1, d1) → InMemory a'.mem M1 d1) ∧
      a.beg ≤ a'.beg ∧ a'.beg ≤ a'.stop ∧ a'.stop = a.stop ∧ SameButFree a a.mem a'.mem := by
  obtain ⟨⟨own, hs⟩, _⟩ := h.shared
  have hgr : ∀ q a', memCreateDom src a = .ok (q, a') → ∀ M, q = some M → Growable M := by
    intro q a' e M hM
    subst hM
    have ht : Tok (a.env U) src (str a.mem src) := tok_str (V := a.env U) h1 h2 fun y g1 g2 => ⟨h3 y g1 g2, hs.away y (h3 y g1 g2)⟩
    rcases (createDom_sim hs.pos hs.max ht).ok r hr with ⟨e', _⟩ | ⟨⟨q, a1⟩, e', hR⟩
    · rw [e'] at e; cases e
    · rw [e'] at e
      cases e
      cases hR with
      | dom hR _ => obtain ⟨o, hR⟩ := hR; exact hR.growable
  rcases hs.create h1 h2 h3 hr with ⟨e, _⟩ | ⟨q, a', e, g1, g2, g3, g4, _, g5, g6, g7⟩
  · exact Or.inl e
  · refine Or.inr ⟨q, a', e, g5, fun M d e1 e2 => ?_, fun j M1 d1 hj => ?_, g1, g2, g3, g4⟩
    · obtain ⟨own', hs'⟩ := g7 M d e1 e2
      exact ⟨hs'.inMemory (i := l.length) (by simp) fun _ _ => rfl, hgr q a' e M e1⟩
    · exact (hs.grow g1 g2 g3 g4).inMemory hj fun _ _ => rfl

/-- C91: querying a DOM jumps, or answers as on the abstract DOM and leaves a world in which all DOMs are the same; the array of the
answer then is memory of the program, with room for it taken from the arena. -/
theorem C91_query_beside (U : Int → Prop) (l : List (MDom × Dom)) (a : Arena) (h : World U l a) (i : Nat) (M : MDom) (d : Dom)
    (hi : l[i]? = some (M, d)) (pun : Nat → Nat) (css : Str) :
    memQuerySelectorAll pun css d a = .longjmp ∨
    (∃ st a', querySelectorAll pun css d = .ok (.fail st) ∧ memQuerySelectorAll pun css d a = .ok (.fail st, a') ∧ a'.beg = a.beg ∧
      World (fun y => U y ∨ (a.beg ≤ y ∧ y < a'.beg)) l a') ∨
    (∃ L p a', querySelectorAll pun css d = .ok (.go L) ∧ memQuerySelectorAll pun css d a = .ok (.go (p, L.length), a') ∧
      words16 a'.mem p L.length = L ∧ a.beg ≤ p ∧ p + 2 * L.length = a'.beg ∧ World (fun y => U y ∨ (a.beg ≤ y ∧ y < a'.beg)) l a') := by
  obtain ⟨⟨own, hs⟩, hR⟩ := h.shared
  have hRd := hR _ (List.mem_of_getElem? hi)
  have hk : ∀ mem, KeepsRest a mem → SameButFree a a.mem mem := fun mem hm y hy => hm y (by omega)
  rcases C81_array d hRd pun css a hs.top with e | ⟨st, mem, e1, e2, e3⟩ | ⟨L, p, mem, e1, e2, e3, e4, e5, e6, e7, e8⟩
  · exact Or.inl e
  · exact Or.inr (Or.inl ⟨st, _, e1, e2, rfl, h.used (b := a.beg) le_rfl hs.top (hk mem e3)⟩)
  · exact Or.inr (Or.inr ⟨L, p, _, e1, e2, e3, e6, rfl, h.used (b := p + 2 * (L.length : Int)) (by omega) e8 (hk mem e4)⟩)

/-! ## C90: duplicating in memory -/

/-- C90: a DOM in memory is duplicated, or the call jumps for lack of memory.  The duplicate's tables and maps are those of the DOM;
only free memory is written, so the original and all other DOMs are as they were. -/
theorem C90_duplicate_in_memory (U : Int → Prop) (l : List (MDom × Dom)) (a : Arena) (h : World U l a) (i : Nat) (M : MDom) (d : Dom)
    (hi : l[i]? = some (M, d)) : ∃ d2, duplicateDom d = .ok d2 ∧ (memDuplicate M a = .longjmp ∨ ∃ M2 a', memDuplicate M a = .ok (M2, a') ∧
      InMemory a'.mem M2 d2 ∧ World U (l ++ [(M2, d2)]) a' ∧ (∀ (j : Nat) M1 d1, l[j]? = some (M1, d1) → InMemory a'.mem M1 d1) ∧
      a.beg ≤ a'.beg ∧ a'.beg ≤ a'.stop ∧ a'.stop = a.stop ∧ SameButFree a a.mem a'.mem) := by
  obtain ⟨⟨own, hs⟩, hR⟩ := h.shared
  have hRd := hR _ (List.mem_of_getElem? hi)
  obtain ⟨tm, bm, km, vm, hd, _⟩ := duplicate_inv (reach_domI hRd).1
  refine ⟨_, hd, ?_⟩
  rcases hs.dup hi hRd hd with ⟨e, _⟩ | ⟨M2, a', own', e, g1, g2, g3, g4, _, g5⟩
  · exact Or.inl e
  · refine Or.inr ⟨M2, a', e, g5.inMemory (i := l.length) (by simp) fun _ _ => rfl, h.duplicated hi hd e, fun j M1 d1 hj => ?_, g1, g2, g3, g4⟩
    exact g5.inMemory (i := j) (by rw [List.getElem?_append_left (List.getElem?_eq_some_iff.1 hj).1]; exact hj) fun _ _ => rfl

/-- C90: the duplicate has the same nodes, rows and names, and every name has the number it had. -/
theorem C90_duplicate_is_the_same (d d2 : Dom) (h : Reachable d) (hd : duplicateDom d = .ok d2) :
    d2.nodes = d.nodes ∧ d2.fc = d.fc ∧ d2.pc = d.pc ∧ d2.nn = d.nn ∧ d2.boolProps = d.boolProps ∧ d2.props = d.props ∧
    d2.tagReg = d.tagReg ∧ d2.boolReg = d.boolReg ∧ d2.keyReg = d.keyReg ∧ d2.valReg = d.valReg ∧
    ∀ k v, v ≠ 0 → (d2.tagMap.contains k = v ↔ d.tagMap.contains k = v) ∧ (d2.boolMap.contains k = v ↔ d.boolMap.contains k = v) ∧
      (d2.keyMap.contains k = v ↔ d.keyMap.contains k = v) ∧ (d2.valMap.contains k = v ↔ d.valMap.contains k = v) := by
  have hI := (reach_domI h).1
  obtain ⟨tm, bm, km, vm, e, h2⟩ := duplicate_inv hI
  rw [e] at hd
  cases hd
  refine ⟨rfl, rfl, rfl, rfl, rfl, rfl, rfl, rfl, rfl, rfl, fun k v hv => ⟨?_, ?_, ?_, ?_⟩⟩
  · rw [h2.names.tag.iff k v hv, hI.names.tag.iff k v hv]
  · rw [h2.names.bool.iff k v hv, hI.names.bool.iff k v hv]
  · rw [h2.names.key.iff k v hv, hI.names.key.iff k v hv]
  · rw [h2.names.val.iff k v hv, hI.names.val.iff k v hv]

/-- C90: the measure of the DOM and 80 bytes are enough memory, and no more is taken. -/
theorem C90_memory_is_linear (U : Int → Prop) (l : List (MDom × Dom)) (a : Arena) (h : World U l a) (i : Nat) (M : MDom) (d : Dom)
    (hi : l[i]? = some (M, d)) :
    (domBytes d + 80 ≤ a.stop - a.beg → memDuplicate M a ≠ .longjmp) ∧
    ∀ M2 a', memDuplicate M a = .ok (M2, a') → a'.beg - a.beg ≤ domBytes d + 80 := by
  obtain ⟨⟨own, hs⟩, hR⟩ := h.shared
  have hRd := hR _ (List.mem_of_getElem? hi)
  obtain ⟨tm, bm, km, vm, hd, _⟩ := duplicate_inv (reach_domI hRd).1
  rw [domBytes_eq]
  rcases hs.dup hi hRd hd with ⟨e, hl⟩ | ⟨M2, a', own', e, g1, g2, g3, g4, g5, g6⟩
  · exact ⟨fun hroom => by omega, fun M2 a' e' => (by rw [e] at e'; cases e')⟩
  · refine ⟨fun _ e' => (by rw [e] at e'; cases e'), fun M3 a3 e' => ?_⟩
    rw [e] at e'
    cases e'
    omega

/-! ## C92: editing a duplicate -/

theorem arrCopy_buf {size align : Int} {s : Arr} {a : Arena} : Ok (fun q => q.1.buf ≠ none) (arrCopy size align s a) := by
  intro q e
  unfold arrCopy at e
  cases hA : arenaAlloc size align s.len false false a with
  | ok r =>
    rw [hA] at e
    obtain ⟨p, a1⟩ := r
    rw [Out.bind_ok] at e
    cases p with
    | none => cases e
    | some p =>
      cases hb : s.buf with
      | none => rw [hb] at e; cases e; simp
      | some b => rw [hb] at e; cases e; simp
  | longjmp => rw [hA] at e; cases e
  | ub w => rw [hA] at e; cases e
  | hang => rw [hA] at e; cases e

theorem memDuplicate_bufs {M : MDom} {a : Arena} : Ok (fun q => ∀ s ∈ tablesOf q.1, s.buf ≠ none) (memDuplicate M a) := by
  unfold memDuplicate memCopyTables copyNodes copyFc copyPc copyNn copyBoolProps copyProps copyTagReg copyBoolReg copyKeyReg copyValReg
  refine Ok.bind (P := fun q => ∀ s ∈ tablesOf q.1, s.buf ≠ none) ?_ fun q hq => ?_
  · refine Ok.triv.bind fun _ _ => ?_
    refine Ok.bind (P := fun q => q.1.nodes.buf ≠ none) (arrCopy_buf.bind fun _ h => Ok.ok h) fun q h1 => ?_
    refine Ok.bind (P := fun q => q.1.nodes.buf ≠ none ∧ q.1.fc.buf ≠ none) (arrCopy_buf.bind fun _ h => Ok.ok ⟨h1, h⟩) fun q h1 => ?_
    refine Ok.bind (P := fun q => q.1.nodes.buf ≠ none ∧ q.1.fc.buf ≠ none ∧ q.1.pc.buf ≠ none)
      (arrCopy_buf.bind fun _ h => Ok.ok ⟨h1.1, h1.2, h⟩) fun q h1 => ?_
    refine Ok.bind (P := fun q => q.1.nodes.buf ≠ none ∧ q.1.fc.buf ≠ none ∧ q.1.pc.buf ≠ none ∧ q.1.nn.buf ≠ none)
      (arrCopy_buf.bind fun _ h => Ok.ok ⟨h1.1, h1.2.1, h1.2.2, h⟩) fun q h1 => ?_
    refine Ok.bind (P := fun q => q.1.nodes.buf ≠ none ∧ q.1.fc.buf ≠ none ∧ q.1.pc.buf ≠ none ∧ q.1.nn.buf ≠ none ∧ q.1.boolProps.buf ≠ none)
      (arrCopy_buf.bind fun _ h => Ok.ok ⟨h1.1, h1.2.1, h1.2.2.1, h1.2.2.2, h⟩) fun q h1 => ?_
    refine Ok.bind (P := fun q => q.1.nodes.buf ≠ none ∧ q.1.fc.buf ≠ none ∧ q.1.pc.buf ≠ none ∧ q.1.nn.buf ≠ none ∧ q.1.boolProps.buf ≠ none ∧
      q.1.props.buf ≠ none) (arrCopy_buf.bind fun _ h => Ok.ok ⟨h1.1, h1.2.1, h1.2.2.1, h1.2.2.2.1, h1.2.2.2.2, h⟩) fun q h1 => ?_
    refine Ok.bind (P := fun q => q.1.nodes.buf ≠ none ∧ q.1.fc.buf ≠ none ∧ q.1.pc.buf ≠ none ∧ q.1.nn.buf ≠ none ∧ q.1.boolProps.buf ≠ none ∧
      q.1.props.buf ≠ none ∧ q.1.tagReg.buf ≠ none)
      (arrCopy_buf.bind fun _ h => Ok.ok ⟨h1.1, h1.2.1, h1.2.2.1, h1.2.2.2.1, h1.2.2.2.2.1, h1.2.2.2.2.2, h⟩) fun q h1 => ?_
    refine Ok.bind (P := fun q => q.1.nodes.buf ≠ none ∧ q.1.fc.buf ≠ none ∧ q.1.pc.buf ≠ none ∧ q.1.nn.buf ≠ none ∧ q.1.boolProps.buf ≠ none ∧
      q.1.props.buf ≠ none ∧ q.1.tagReg.buf ≠ none ∧ q.1.boolReg.buf ≠ none)
      (arrCopy_buf.bind fun _ h => Ok.ok ⟨h1.1, h1.2.1, h1.2.2.1, h1.2.2.2.1, h1.2.2.2.2.1, h1.2.2.2.2.2.1, h1.2.2.2.2.2.2, h⟩) fun q h1 => ?_
    refine Ok.bind (P := fun q => q.1.nodes.buf ≠ none ∧ q.1.fc.buf ≠ none ∧ q.1.pc.buf ≠ none ∧ q.1.nn.buf ≠ none ∧ q.1.boolProps.buf ≠ none ∧
      q.1.props.buf ≠ none ∧ q.1.tagReg.buf ≠ none ∧ q.1.boolReg.buf ≠ none ∧ q.1.keyReg.buf ≠ none)
      (arrCopy_buf.bind fun _ h => Ok.ok ⟨h1.1, h1.2.1, h1.2.2.1, h1.2.2.2.1, h1.2.2.2.2.1, h1.2.2.2.2.2.1, h1.2.2.2.2.2.2.1, h1.2.2.2.2.2.2.2, h⟩) fun q h1 => ?_
    refine arrCopy_buf.bind fun _ h => Ok.ok fun s hs => ?_
    obtain ⟨g1, g2, g3, g4, g5, g6, g7, g8, g9⟩ := h1
    simp only [tablesOf, List.mem_cons, List.not_mem_nil, or_false] at hs
    rcases hs with rfl | rfl | rfl | rfl | rfl | rfl | rfl | rfl | rfl | rfl <;> assumption
  · unfold memRebuildTag memRebuildBool memRebuildKey memRebuildVal
    refine Ok.bind (P := fun q => ∀ s ∈ tablesOf q.1, s.buf ≠ none) (Ok.triv.bind fun _ _ => Ok.ok hq) fun q hq => ?_
    refine Ok.bind (P := fun q => ∀ s ∈ tablesOf q.1, s.buf ≠ none) (Ok.triv.bind fun _ _ => Ok.ok hq) fun q hq => ?_
    refine Ok.bind (P := fun q => ∀ s ∈ tablesOf q.1, s.buf ≠ none) (Ok.triv.bind fun _ _ => Ok.ok hq) fun q hq => ?_
    exact Ok.triv.bind fun _ _ => Ok.ok hq

/-- C92, exactly: a table of a duplicate can grow just if it has entries.  A parsed DOM's tables always can. -/
theorem C92_duplicate_growable_iff (U : Int → Prop) (l : List (MDom × Dom)) (a : Arena) (h : World U l a) (i : Nat) (M : MDom) (d : Dom)
    (hi : l[i]? = some (M, d)) (M2 : MDom) (a' : Arena) (e : memDuplicate M a = .ok (M2, a')) :
    Growable M2 ↔ d.fc ≠ [] ∧ d.pc ≠ [] ∧ d.nn ≠ [] ∧ d.boolProps ≠ [] ∧ d.props ≠ [] := by
  obtain ⟨⟨own, hs⟩, hR⟩ := h.shared
  have hRd := hR _ (List.mem_of_getElem? hi)
  obtain ⟨n1, n2, n3, n4⟩ := reach_regs hRd
  have n0 : d.nodes ≠ [] := by
    intro e
    have := (reach_domI hRd).1.rootN
    rw [e] at this
    simp at this
  obtain ⟨tm, bm, km, vm, hd, _⟩ := duplicate_inv (reach_domI hRd).1
  rcases hs.dup hi hRd hd with ⟨e', _⟩ | ⟨M3, a3, own', e', _, _, _, _, _, g⟩
  · rw [e'] at e; cases e
  rw [e'] at e
  cases e
  obtain ⟨lo, hr⟩ := g.rep l.length M2 { d with tagMap := tm, boolMap := bm, keyMap := km, valMap := vm } (by simp)
  have hb := memDuplicate_bufs _ e'
  dsimp only at hb
  have hno : Growable M2 → ∀ s ∈ tablesOf M2, s.len ≠ 0 := fun hg s hs hl => hb s hs (by rw [hg s hs hl]; rfl)
  have l_nodes : M2.nodes.len = d.nodes.length := (Arr.norm_len _).symm.trans hr.nodes.len
  have l_fc : M2.fc.len = d.fc.length := (Arr.norm_len _).symm.trans hr.fc.len
  have l_pc : M2.pc.len = d.pc.length := (Arr.norm_len _).symm.trans hr.pc.len
  have l_nn : M2.nn.len = d.nn.length := (Arr.norm_len _).symm.trans hr.nn.len
  have l_boolProps : M2.boolProps.len = d.boolProps.length := (Arr.norm_len _).symm.trans hr.boolProps.len
  have l_props : M2.props.len = d.props.length := (Arr.norm_len _).symm.trans hr.props.len
  have l_tagReg : M2.tagReg.len = d.tagReg.length := (Arr.norm_len _).symm.trans hr.tagReg.len
  have l_boolReg : M2.boolReg.len = d.boolReg.length := (Arr.norm_len _).symm.trans hr.boolReg.len
  have l_keyReg : M2.keyReg.len = d.keyReg.length := (Arr.norm_len _).symm.trans hr.keyReg.len
  have l_valReg : M2.valReg.len = d.valReg.length := (Arr.norm_len _).symm.trans hr.valReg.len
  constructor
  · intro hg
    have hn := hno hg
    refine ⟨?_, ?_, ?_, ?_, ?_⟩ <;> intro e
    · exact hn M2.fc (by simp [tablesOf]) (by rw [l_fc, e]; rfl)
    · exact hn M2.pc (by simp [tablesOf]) (by rw [l_pc, e]; rfl)
    · exact hn M2.nn (by simp [tablesOf]) (by rw [l_nn, e]; rfl)
    · exact hn M2.boolProps (by simp [tablesOf]) (by rw [l_boolProps, e]; rfl)
    · exact hn M2.props (by simp [tablesOf]) (by rw [l_props, e]; rfl)
  · rintro ⟨p1, p2, p3, p4, p5⟩ s hs hl
    exfalso
    have hp : ∀ {α : Type} {x : List α}, x ≠ [] → (x.length : Int) ≠ 0 := fun hx e => hx (List.length_eq_zero_iff.1 (by omega))
    simp only [tablesOf, List.mem_cons, List.not_mem_nil, or_false] at hs
    rcases hs with rfl | rfl | rfl | rfl | rfl | rfl | rfl | rfl | rfl | rfl
    · exact hp n0 (l_nodes ▸ hl)
    · exact hp p1 (l_fc ▸ hl)
    · exact hp p2 (l_pc ▸ hl)
    · exact hp p3 (l_nn ▸ hl)
    · exact hp p4 (l_boolProps ▸ hl)
    · exact hp p5 (l_props ▸ hl)
    · exact hp n1 (l_tagReg ▸ hl)
    · exact hp n2 (l_boolReg ▸ hl)
    · exact hp n3 (l_keyReg ▸ hl)
    · exact hp n4 (l_valReg ▸ hl)

/-- C92: an edit of a duplicate all of whose tables have entries works like an edit of any DOM, and the original stays as it is.  The
property asks for this without the hypothesis on the tables. -/
theorem C92_edit_duplicate_partial (U : Int → Prop) (l : List (MDom × Dom)) (a : Arena) (h : World U l a) (i : Nat) (M : MDom) (d : Dom)
    (hi : l[i]? = some (M, d)) (hf : d.fc ≠ [] ∧ d.pc ≠ [] ∧ d.nn ≠ [] ∧ d.boolProps ≠ [] ∧ d.props ≠ [])
    (M2 : MDom) (d2 : Dom) (a2 : Arena) (hd : duplicateDom d = .ok d2) (hm : memDuplicate M a = .ok (M2, a2))
    (junk : Nat → Out Bool) (hj : Reads junk) (op : MOp) (ho : op.Given U) (v : Nat) (d' : Dom)
    (hr : callOp junk (op.read a2.mem) d2 = .ok (v, d')) :
    memCall junk op M2 a2 = .longjmp ∨ ∃ M' a', memCall junk op M2 a2 = .ok (v, M', a') ∧ InMemory a'.mem M' d' ∧ InMemory a'.mem M d := by
  have hil := (List.getElem?_eq_some_iff.1 hi).1
  have hg := (C92_duplicate_growable_iff U l a h i M d hi M2 a2 hm).2 hf
  have hw := h.duplicated hi hd hm
  rcases C91_edit_one U _ a2 hw l.length M2 d2 (by simp) hg junk hj op ho v d' hr with e | ⟨M', a', e, h1, _, h2, _⟩
  · exact Or.inl e
  · exact Or.inr ⟨M', a', e, h1, h2 i M d (by omega) (by rw [List.getElem?_append_left hil]; exact hi)⟩

/-- A source text `<p></p>` at 1000 and an arena from 2001 on. -/
def dupArena : Arena := { beg := 2001, stop := 11001, mem := memWrite 1000 b!"<p></p>" fun _ => 7 }

def dupSrc : MStr := ⟨1000, 7⟩

theorem dupArena_ok : ArenaOK dupArena ∧ 0 < dupArena.beg := by
  refine ⟨⟨?_, ?_, ?_⟩, ?_⟩ <;> simp [dupArena]

set_option maxRecDepth 8000 in
theorem dupBroken : ∃ d M a d2 M2 a2 v d3 M3 a3, createDom (str dupArena.mem dupSrc) = .ok (some d) ∧
    memCreateDom dupSrc dupArena = .ok (some M, a) ∧ duplicateDom d = .ok d2 ∧ memDuplicate M a = .ok (M2, a2) ∧
    callOp noJunk (MOp.read a2.mem (.appendText 1 ⟨1000, 2⟩)) d2 = .ok (v, d3) ∧ 1 < d2.nodes.length ∧
    memCall noJunk (.appendText 1 ⟨1000, 2⟩) M2 a2 = .ok (v, M3, a3) ∧ d3.nn = [(2, 3)] ∧ (entries M3.nn 4).map (pairAt a3.mem) = [(1, 2)] := by
  have h : someAnd (createDom (str dupArena.mem dupSrc)) (fun d => okAnd (memCreateDom dupSrc dupArena) fun r =>
      match r.1 with
      | none => false
      | some M => okAnd (duplicateDom d) fun d2 => okAnd (memDuplicate M r.2) fun q =>
        okAnd (callOp noJunk (MOp.read q.2.mem (.appendText 1 ⟨1000, 2⟩)) d2) fun c =>
        okAnd (memCall noJunk (.appendText 1 ⟨1000, 2⟩) q.1 q.2) fun t =>
          decide (1 < d2.nodes.length ∧ t.1 = c.1 ∧ c.2.nn = [(2, 3)] ∧ (entries t.2.1.nn 4).map (pairAt t.2.2.mem) = [(1, 2)])) = true := by
    decide +kernel
  obtain ⟨d, h1, h2⟩ := someAnd_ex h
  obtain ⟨⟨q, a⟩, h3, h4⟩ := okAnd_ex h2
  cases q with
  | none => cases h4
  | some M =>
    dsimp only at h4
    obtain ⟨d2, h5, h6⟩ := okAnd_ex h4
    obtain ⟨⟨M2, a2⟩, h7, h8⟩ := okAnd_ex h6
    obtain ⟨⟨v, d3⟩, h9, h10⟩ := okAnd_ex h8
    obtain ⟨⟨v', M3, a3⟩, h11, h12⟩ := okAnd_ex h10
    obtain ⟨g0, g1, g2, g3⟩ := of_decide_eq_true h12
    dsimp only at g1 g2 g3 h11
    subst g1
    exact ⟨d, M, a, d2, M2, a2, _, d3, M3, a3, h1, h3, h5, h7, h9, g0, h11, g2, g3⟩

/-- C92 is violated: after the parse of `<p></p>`, appending a text to the root of a duplicate returns normally, but the tables of
the duplicate are not those of the DOM; the row for the next node is overwritten, since the table had an address but no memory. -/
theorem C92_violated : ∃ U l a, ∃ i : Nat, ∃ M d junk op v d' M' a', World U l a ∧ l[i]? = some (M, d) ∧ Reads junk ∧ op.Given U ∧
    Allowed junk d (op.read a.mem) ∧ callOp junk (op.read a.mem) d = .ok (v, d') ∧ memCall junk op M a = .ok (v, M', a') ∧ ¬InMemory a'.mem M' d' := by
  obtain ⟨d, M, a, d2, M2, a2, v, d3, M3, a3, h1, h2, h3, h4, h5, h0, h6, h7, h8⟩ := dupBroken
  have hw0 := World.start dupArena_ok.1 dupArena_ok.2
  have hu : ∀ y, (1000 : Int) ≤ y → y < 1000 + 7 → y < dupArena.beg ∨ dupArena.stop ≤ y := fun y _ g => Or.inl (by show y < 2001; omega)
  have hw1 := hw0.created (src := dupSrc) (by decide) (by decide) (fun y g1 g2 => hu y g1 g2) h1 h2
  have hw2 := hw1.duplicated (i := 0) rfl h3 h4
  refine ⟨_, _, a2, 1, M2, d2, noJunk, .appendText 1 ⟨1000, 2⟩, v, d3, M3, a3, hw2, rfl, noJunk_reads, ?_, ?_, h5, h6, fun hc => ?_⟩
  · refine ⟨(by show (1 : Nat) < 65536; omega), ?_, ?_, ?_⟩ <;> intro s hs <;> simp only [MOp.strings, List.mem_cons, List.not_mem_nil, or_false] at hs <;> subst hs
    · show (0 : Int) ≤ 1000; omega
    · show (1000 : Int) + 2 ≤ _; omega
    · intro y g1 g2
      exact hu y g1 (by change y < 1000 + 2 at g2; omega)
  · exact ⟨Nat.succ_ne_zero 0, h0⟩
  · have := hc.nexts
    rw [h7, h8] at this
    exact absurd this (by decide)

/-! ## Memory -/

/-- C91: with linear memory and identifiers left, an allowed edit of a growable DOM succeeds. -/
theorem C91_edits_succeed (U : Int → Prop) (l : List (MDom × Dom)) (a : Arena) (h : World U l a) (i : Nat) (M : MDom) (d : Dom)
    (hi : l[i]? = some (M, d)) (hg : Growable M) (junk : Nat → Out Bool) (hj : Reads junk) (op : MOp) (ho : op.Given U)
    (ha : Allowed junk d (op.read a.mem)) (hI : Room d (op.read a.mem).cost)
    (hq : ∀ t, Op.html (op.read a.mem) ≠ t ++ [34] ∧ Op.html (op.read a.mem) ≠ t ++ [39])
    (hroom : 3 * domBytes d + 1000 * op.size + 1000 ≤ a.stop - a.beg) :
    ∃ v d' M' a', callOp junk (op.read a.mem) d = .ok (v, d') ∧ memCall junk op M a = .ok (v, M', a') ∧ World U (l.set i (M', d')) a' := by
  obtain ⟨d1, h1, _⟩ := C72_edits_succeed d (C91_all_doms_in_memory U l a h i M d hi).1 junk hj _ ha hI hq
  rw [runOp_call] at h1
  obtain ⟨⟨own, hs⟩, _⟩ := h.shared
  cases hx : callOp junk (op.read a.mem) d with
  | ok r =>
    obtain ⟨v, d'⟩ := r
    rcases (hs.call hi hg ho hj).1 v d' hx with ⟨_, hlt⟩ | ⟨M', a', _, h4, _⟩
    · omega
    · exact ⟨v, d', M', a', rfl, h4, h.edited hi hg hj ho ha hx h4⟩
  | longjmp => rw [hx] at h1; cases h1
  | hang => rw [hx] at h1; cases h1
  | ub w => rw [hx] at h1; cases h1

/-- C91: parsing takes no more memory beside other DOMs than alone. -/
theorem C91_parse_memory (U : Int → Prop) (l : List (MDom × Dom)) (a : Arena) (h : World U l a) (src : MStr) (h1 : 0 ≤ src.ptr)
    (h2 : src.ptr + src.len ≤ 2 ^ 62) (h3 : ∀ y, src.ptr ≤ y → y < src.ptr + src.len → U y) (r : Option Dom)
    (hr : createDom (str a.mem src) = .ok r) :
    (840 + 320 * (src.len : Int) ≤ a.stop - a.beg → memCreateDom src a ≠ .longjmp) ∧
    ∀ q a', memCreateDom src a = .ok (q, a') → a'.beg - a.beg ≤ 840 + 320 * (src.len : Int) := by
  obtain ⟨⟨own, hs⟩, _⟩ := h.shared
  rcases hs.create h1 h2 h3 hr with ⟨e, hl⟩ | ⟨q, a', e, g1, g2, g3, g4, g5, _⟩
  · exact ⟨fun hroom => by omega, fun q a' e' => (by rw [e] at e'; cases e')⟩
  · refine ⟨fun _ e' => (by rw [e] at e'; cases e'), fun q2 a2 e' => ?_⟩
    rw [e] at e'
    cases e'
    omega

/-! ## An example -/

/-- A source whose tables all have entries. -/
def twinArena : Arena := { beg := 2001, stop := 31001, mem := memWrite 1000 b!"<p a=b c>x<i/></p><b/>" fun _ => 7 }

def twinSrc : MStr := ⟨1000, 22⟩

theorem twinArena_ok : ArenaOK twinArena ∧ 0 < twinArena.beg := by
  refine ⟨⟨?_, ?_, ?_⟩, ?_⟩ <;> simp [twinArena]

def twinRun (p : Dom → MDom → Arena → Dom → MDom → Arena → Bool) : Bool :=
  someAnd (createDom (str twinArena.mem twinSrc)) fun d => okAnd (memCreateDom twinSrc twinArena) fun r =>
    match r.1 with
    | none => false
    | some M => okAnd (duplicateDom d) fun d2 => okAnd (memDuplicate M r.2) fun q => p d M r.2 d2 q.1 q.2

set_option maxRecDepth 8000 in
/-- The hypotheses of C90, C91 and C92 are met: a DOM is parsed and duplicated, and a text is appended to the duplicate. -/
example : ∃ U M d M2 d2 a, World U [(M, d), (M2, d2)] a ∧ Growable M ∧ Growable M2 ∧ d2.nn.length = 2 ∧
    (MOp.appendText 2 ⟨1000, 2⟩).Given U ∧ Allowed noJunk d2 (MOp.read a.mem (.appendText 2 ⟨1000, 2⟩)) ∧
    ∃ v d3 M3 a3, callOp noJunk (MOp.read a.mem (.appendText 2 ⟨1000, 2⟩)) d2 = .ok (v, d3) ∧
      memCall noJunk (.appendText 2 ⟨1000, 2⟩) M2 a = .ok (v, M3, a3) ∧ World U [(M, d), (M3, d3)] a3 := by
  have h : twinRun (fun d M a d2 M2 a2 => decide (d.fc ≠ [] ∧ d.pc ≠ [] ∧ d.nn ≠ [] ∧ d.boolProps ≠ [] ∧ d.props ≠ [] ∧ d2.nn.length = 2 ∧
      2 < d2.nodes.length ∧ (∀ s ∈ tablesOf M, s.len = 0 → s = ⟨none, 0, 0⟩)) && okAnd (callOp noJunk (MOp.read a2.mem (.appendText 2 ⟨1000, 2⟩)) d2) fun c =>
        okAnd (memCall noJunk (.appendText 2 ⟨1000, 2⟩) M2 a2) fun t => decide (t.1 = c.1)) = true := by
    decide +kernel
  obtain ⟨d, h1, h2⟩ := someAnd_ex h
  obtain ⟨⟨q, a⟩, h3, h4⟩ := okAnd_ex h2
  cases q with
  | none => cases h4
  | some M =>
    dsimp only at h4
    obtain ⟨d2, h5, h6⟩ := okAnd_ex h4
    obtain ⟨⟨M2, a2⟩, h7, h8⟩ := okAnd_ex h6
    obtain ⟨h8, h9⟩ := Bool.and_eq_true_iff.1 h8
    obtain ⟨⟨v, d3⟩, h10, h11⟩ := okAnd_ex h9
    obtain ⟨⟨v', M3, a3⟩, h12, h13⟩ := okAnd_ex h11
    have h13 := of_decide_eq_true h13
    dsimp only at h13 h12
    subst h13
    obtain ⟨g1, g2, g3, g4, g5, g6, g7, g8⟩ := of_decide_eq_true h8
    have hu : ∀ y, (1000 : Int) ≤ y → y < 1000 + 22 → y < twinArena.beg ∨ twinArena.stop ≤ y := fun y _ g => Or.inl (by show y < 2001; omega)
    have hw1 := (World.start twinArena_ok.1 twinArena_ok.2).created (src := twinSrc) (by decide) (by decide) (fun y g1 g2 => hu y g1 g2) h1 h3
    have hw2 := hw1.duplicated (i := 0) rfl h5 h7
    have hg2 := (C92_duplicate_growable_iff _ _ a hw1 0 M d rfl M2 a2 h7).2 ⟨g1, g2, g3, g4, g5⟩
    have ho : (MOp.appendText 2 ⟨1000, 2⟩).Given fun y => y < twinArena.beg ∨ twinArena.stop ≤ y := by
      refine ⟨(by show (2 : Nat) < 65536; omega), ?_, ?_, ?_⟩ <;> intro s hs <;> simp only [MOp.strings, List.mem_cons, List.not_mem_nil, or_false] at hs <;> subst hs
      · show (0 : Int) ≤ 1000; omega
      · show (1000 : Int) + 2 ≤ _; omega
      · intro y g1 g2
        exact hu y g1 (by change y < 1000 + 2 at g2; omega)
    have ha : Allowed noJunk d2 (MOp.read a2.mem (.appendText 2 ⟨1000, 2⟩)) := ⟨Nat.succ_ne_zero 1, g7⟩
    exact ⟨_, M, d, M2, d2, a2, hw2, g8, hg2, g6, ho, ha, _, d3, M3, a3, h10, h12, hw2.edited (i := 1) rfl hg2 noJunk_reads ho ha h10 h12⟩

end Flo
