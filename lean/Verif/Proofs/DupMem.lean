import Verif.Model.DupMem
import Verif.Proofs.EditMemHistory
/-!
# Duplicating a DOM in memory: the tables
-/
namespace Flo
open Spec

set_option linter.unusedSimpArgs false

/-- A table without entries is as good as one without memory, for readers. -/
def Arr.norm (s : Arr) : Arr := if s.len = 0 then .empty else s

theorem Arr.norm_len (s : Arr) : s.norm.len = s.len := by
  unfold Arr.norm; split
  · next h => rw [h]; rfl
  · rfl

/-- The structure without memory for tables that have no entries. -/
def MDom.norm (M : MDom) : MDom :=
  { M with
    nodes := M.nodes.norm
    fc := M.fc.norm
    pc := M.pc.norm
    nn := M.nn.norm
    boolProps := M.boolProps.norm
    props := M.props.norm
    tagReg := M.tagReg.norm
    boolReg := M.boolReg.norm
    keyReg := M.keyReg.norm
    valReg := M.valReg.norm }

/-- A table that is copied: its entries are in memory that stays as it is. -/
structure Source {α : Type} (V : MEnv) (k : Kind) (E : ElemAt α) (s : Arr) (l : List α) : Prop where
  len : s.len = l.length
  buf : l ≠ [] → ∃ b, s.buf = some b
  at_ : ∀ b, s.buf = some b → ∀ (i : Nat) x, l[i]? = some x → ∀ own mem, (∀ y, V.keep y → own y = .fixed ∧ mem y = V.mem y) →
    (∀ y, V.oth y → mem y = V.mem y) → E mem own (b + k.size * (i : Int)) i x

/-- What copying a table does; the second case is an arena that padding has driven beyond its end. -/
def CopyRuns (V : MEnv) (x : Int) (y : Out (MDom × Arena)) (d' : Dom) : Prop :=
  (y = .longjmp ∧ V.stop < V.base + (d'.bytes + x)) ∨
  (∃ M a, y = .ok (M, a) ∧ a.stop < a.beg ∧ V.stop < V.base + (d'.bytes + x)) ∨
  ∃ M a own, y = .ok (M, a) ∧ Rep V own x M.norm a d'

theorem copy_rep {α : Type} {V : MEnv} {own : Int → Owner} {x : Int} {M : MDom} {a : Arena} {d : Dom} {o : Owner} {k : Kind} {E : ElemAt α}
    {s : Arr} {l : List α} (hE : Movable k.size E) (hk : k.OK) (hal : k.align ≤ 8) (ho : o ≠ .free) (hof : o ≠ .fixed)
    (hs : Source V k E s l) (h : Rep V own x M a d) :
    (arrCopy k.size k.align s a = .longjmp ∧ a.stop < a.beg + k.size * (l.length : Int) + 8) ∨
    (∃ s' a', arrCopy k.size k.align s a = .ok (s', a') ∧ a'.stop < a'.beg ∧ a.stop < a.beg + k.size * (l.length : Int) + 8) ∨
    ∃ s' a' own', arrCopy k.size k.align s a = .ok (s', a') ∧ ArrRep own' o k E V.lo a' s'.norm l ∧ Around (· = o) own a own' a' ∧
      a'.beg ≤ a.beg + k.size * (l.length : Int) + 7 ∧ s'.norm.cap = l.length := by
  obtain ⟨hz, hali, hdvd⟩ := id hk
  have hapos := hali.pos
  have hlo := h.lo
  have htop := h.top
  rcases arenaAlloc_cases (size := k.size) (align := k.align) (count := (l.length : Int)) (zero := false) (nof := false) (a := a) hz hali (by omega) with
    ⟨p, a', he, hA⟩ | ⟨hlt, he⟩
  · have h1 := hA.above
    have h2 := hA.close
    have h3 := hA.beg
    have h4 := hA.stop
    have hmem := hA.keeps rfl
    by_cases hl : l = []
    · subst hl
      have e1 : a'.beg = p := by rw [h3]; simp
      -- the copied bytes are none
      have key : ∀ m : Int → UInt8, a'.mem = m → ({ a' with mem := m } : Arena) = a' := by intro m hm; rw [← hm]
      have hres : arrCopy k.size k.align s a = .ok (⟨some p, 0, 0⟩, a') := by
        unfold arrCopy
        rw [hs.len, he]
        simp only [Out.bind_ok]
        cases s.buf with
        | none => rfl
        | some b =>
          dsimp only
          rw [key]
          · rfl
          · funext y
            unfold memCopy
            rw [if_neg]
            simp only [List.length_nil, Nat.cast_zero, Int.zero_mul]
            omega
      rw [hres]
      by_cases hd : a'.stop < a'.beg
      · exact Or.inr (Or.inl ⟨_, _, rfl, hd, by simp; omega⟩)
      · refine Or.inr (Or.inr ⟨_, _, own, rfl, ?_, ⟨by omega, by omega, h4, fun y _ _ => ⟨rfl, by rw [hmem]⟩, fun y _ _ hy => hy⟩, by simp; omega, rfl⟩)
        exact arrRep_empty hk
    · obtain ⟨b, hb⟩ := hs.buf hl
      have hl0 : 0 < l.length := List.length_pos_iff.2 hl
      have hfit := hA.fits (by omega)
      unfold arrCopy
      rw [hs.len, he]
      simp only [Out.bind_ok]
      rw [hb]
      dsimp only
      right; right
      have hm0 : 0 < k.size * (l.length : Int) := by positivity
      have hcm : (l.length : Int) * k.size = k.size * (l.length : Int) := Int.mul_comm _ _
      have hnorm : Arr.norm ⟨some p, (l.length : Int), (l.length : Int)⟩ = ⟨some p, (l.length : Int), (l.length : Int)⟩ := by
        unfold Arr.norm; rw [if_neg]; dsimp only; omega
      refine ⟨_, _, ownBlk own o p (k.size * (l.length : Int)), rfl, ?_, ?_, ?_, ?_⟩
      · rw [hnorm]
        have hF : Fixed own (ownBlk own o p (k.size * (l.length : Int))) a.mem (memCopy p b ((l.length : Int) * k.size) a'.mem) := by
          intro y hy
          have hy' : y < a.beg ∨ a.stop ≤ y := by
            by_contra hc
            have := h.free y (by omega) (by omega)
            rw [this] at hy; cases hy
          refine ⟨?_, ?_⟩
          · unfold ownBlk; rw [if_neg (by omega), hy]
          · unfold memCopy; rw [if_neg (by rw [hcm]; omega), hmem]
        constructor
        · constructor
          · exact hk
          · dsimp only; omega
          · exact le_refl _
          · intro e; cases e
          · intro _ _; dsimp only; omega
          · intro b' e; cases e; omega
          · intro b' e; cases e; dsimp only; omega
          · intro b' e; cases e; dsimp only; omega
          · intro b' e; cases e; exact hA.aligned
        · rfl
        · dsimp only; omega
        · intro b' e; dsimp only; omega
        · intro b' e y hy1 hy2
          cases e
          unfold ownBlk; rw [if_pos ⟨hy1, hy2⟩]
        · intro b' e i z hz'
          cases e
          have hi := (List.getElem?_eq_some_iff.1 hz').1
          refine hE.move (hs.at_ b hb i z hz' own a.mem h.out (fun y hy => (h.oth y hy).2)) hF fun j j0 j1 => ?_
          have hms := mul_slot (z := k.size) (t := (i : Int)) (c := (l.length : Int)) hz (by omega)
          have hm1 : 0 ≤ k.size * (i : Int) := by positivity
          show memCopy p b _ _ _ = _
          unfold memCopy
          rw [if_pos (by rw [hcm]; omega), hmem]
          congr 1; omega
      · refine ⟨by dsimp only; omega, by dsimp only; omega, h4, fun y hy1 hy2 => ?_, fun y hy1 hy2 hy3 => ?_⟩
        · have hy' : y < a.beg ∨ a.stop ≤ y := by
            by_contra hc
            exact hy1 (h.free y (by omega) (by omega))
          refine ⟨?_, ?_⟩
          · unfold ownBlk; rw [if_neg (by omega)]
          · show memCopy _ _ _ _ _ = _
            unfold memCopy; rw [if_neg (by rw [hcm]; omega), hmem]
        · unfold ownBlk
          dsimp only at hy1
          rw [if_neg (by omega), hy3]
      · dsimp only; omega
      · rw [hnorm]
  · left
    unfold arrCopy
    rw [hs.len, he, if_neg (by decide)]
    refine ⟨rfl, ?_⟩
    have := Int.emod_lt_of_pos (-a.beg) hapos
    omega

theorem Rep.dupNodes {V : MEnv} {own : Int → Owner} {x : Int} {src M : MDom} {a : Arena} {d : Dom} (h : Rep V own x M.norm a d)
    {l : List Node} (hs : Source V ⟨24, 8⟩ NodeAt src.nodes l) (hM : M.nodes = .empty) (hd : d.nodes = []) (hfew : l.length ≤ 65535) :
    CopyRuns V (x + 8) (copyNodes src M a) { d with nodes := l } := by
  have hcaps := h.caps
  have hled := h.led
  have hst := h.stop
  have hMn : M.norm.nodes.cap = 0 := by show M.nodes.norm.cap = 0; rw [hM]; rfl
  have hnz : nook 0 = 0 := rfl
  have hnn := nook_nonneg (l.length : Int)
  unfold copyNodes
  rcases copy_rep (o := .arr 0) nodeAt_movable kind_24 (by decide) (by decide) (by decide) hs h with ⟨hj, hs'⟩ | ⟨s', a', he, hdoom, hs'⟩ | ⟨s', a', own', he, hr, hA, hl, hcap⟩
  · left
    rw [hj]
    refine ⟨rfl, ?_⟩
    rw [hst] at hs'
    unfold MDom.ledger at hled
    unfold Dom.bytes Dom.textLen
    unfold Dom.textLen at hled
    rw [hMn, hnz] at hled
    simp only [hd, List.length_nil, List.map_nil, List.sum_nil] at *
    try dsimp only at *
    have ht0 : (0 : Int) ≤ ((l.map Node.textLen).sum : Nat) := by positivity
    push_cast at *
    omega
  · right; left
    rw [he]
    refine ⟨_, _, rfl, hdoom, ?_⟩
    rw [hst] at hs'
    unfold MDom.ledger at hled
    unfold Dom.bytes Dom.textLen
    unfold Dom.textLen at hled
    rw [hMn, hnz] at hled
    simp only [hd, List.length_nil, List.map_nil, List.sum_nil] at *
    try dsimp only at *
    have ht0 : (0 : Int) ≤ ((l.map Node.textLen).sum : Nat) := by positivity
    push_cast at *
    omega
  · right; right
    rw [he]
    refine ⟨_, _, own', rfl, ?_⟩
    exact {
      pos := h.pos
      lo := h.lo.trans hA.beg
      above := h.above.trans hA.beg
      top := hA.top
      stop := hA.stop.trans h.stop
      max := h.max
      free := hA.freed h.free
      out := hA.out (by simp) h.out
      oth := hA.oth (by simp) h.oth
      nodes := hr
      fc := h.fc.other rowAt_movable hA (by simp) (by simp) (by simp)
      pc := h.pc.other rowAt_movable hA (by simp) (by simp) (by simp)
      nn := h.nn.other rowAt_movable hA (by simp) (by simp) (by simp)
      boolProps := h.boolProps.other rowAt_movable hA (by simp) (by simp) (by simp)
      props := h.props.other propAt_movable hA (by simp) (by simp) (by simp)
      tagReg := h.tagReg.other tagAt_movable hA (by simp) (by simp) (by simp)
      boolReg := h.boolReg.other nameAt_movable hA (by simp) (by simp) (by simp)
      keyReg := h.keyReg.other nameAt_movable hA (by simp) (by simp) (by simp)
      valReg := h.valReg.other nameAt_movable hA (by simp) (by simp) (by simp)
      tagMap := h.tagMap.other hA (fun _ => (by simp)) (by simp)
      boolMap := h.boolMap.other hA (fun _ => (by simp)) (by simp)
      keyMap := h.keyMap.other hA (fun _ => (by simp)) (by simp)
      valMap := h.valMap.other hA (fun _ => (by simp)) (by simp)
      few := hfew
      led := by
        have e : MDom.ledger (MDom.norm { M with nodes := s' }) = MDom.ledger M.norm + (52 * (l.length : Int) - nook l.length) := by
          unfold MDom.ledger MDom.norm
          dsimp only
          rw [hcap, show M.nodes.norm.cap = 0 from hMn, hnz]
          ring
        rw [e]
        have e2 := nook_le (show (0 : Int) ≤ (l.length : Int) by omega)
        unfold Dom.textLen at *
        simp only [hd, List.map_nil, List.sum_nil] at *
        try dsimp only at *
        have ht0 : (0 : Int) ≤ ((l.map Node.textLen).sum : Nat) := by positivity
        omega }

theorem Rep.dupFc {V : MEnv} {own : Int → Owner} {x : Int} {src M : MDom} {a : Arena} {d : Dom} (h : Rep V own x M.norm a d)
    {l : List Row} (hs : Source V ⟨4, 2⟩ RowAt src.fc l) (hM : M.fc = .empty) (hd : d.fc = []) :
    CopyRuns V (x + 8) (copyFc src M a) { d with fc := l } := by
  have hcaps := h.caps
  have hled := h.led
  have hst := h.stop
  have hMn : M.norm.fc.cap = 0 := by show M.fc.norm.cap = 0; rw [hM]; rfl
  have hnz : nook 0 = 0 := rfl
  have hnn := nook_nonneg (l.length : Int)
  unfold copyFc
  rcases copy_rep (o := .arr 1) rowAt_movable kind_4 (by decide) (by decide) (by decide) hs h with ⟨hj, hs'⟩ | ⟨s', a', he, hdoom, hs'⟩ | ⟨s', a', own', he, hr, hA, hl, hcap⟩
  · left
    rw [hj]
    refine ⟨rfl, ?_⟩
    rw [hst] at hs'
    unfold MDom.ledger at hled
    unfold Dom.bytes Dom.textLen
    unfold Dom.textLen at hled
    rw [hMn, hnz] at hled
    simp only [hd, List.length_nil, List.map_nil, List.sum_nil] at *
    try dsimp only at *
    push_cast at *
    omega
  · right; left
    rw [he]
    refine ⟨_, _, rfl, hdoom, ?_⟩
    rw [hst] at hs'
    unfold MDom.ledger at hled
    unfold Dom.bytes Dom.textLen
    unfold Dom.textLen at hled
    rw [hMn, hnz] at hled
    simp only [hd, List.length_nil, List.map_nil, List.sum_nil] at *
    try dsimp only at *
    push_cast at *
    omega
  · right; right
    rw [he]
    refine ⟨_, _, own', rfl, ?_⟩
    exact {
      pos := h.pos
      lo := h.lo.trans hA.beg
      above := h.above.trans hA.beg
      top := hA.top
      stop := hA.stop.trans h.stop
      max := h.max
      free := hA.freed h.free
      out := hA.out (by simp) h.out
      oth := hA.oth (by simp) h.oth
      nodes := h.nodes.other nodeAt_movable hA (by simp) (by simp) (by simp)
      fc := hr
      pc := h.pc.other rowAt_movable hA (by simp) (by simp) (by simp)
      nn := h.nn.other rowAt_movable hA (by simp) (by simp) (by simp)
      boolProps := h.boolProps.other rowAt_movable hA (by simp) (by simp) (by simp)
      props := h.props.other propAt_movable hA (by simp) (by simp) (by simp)
      tagReg := h.tagReg.other tagAt_movable hA (by simp) (by simp) (by simp)
      boolReg := h.boolReg.other nameAt_movable hA (by simp) (by simp) (by simp)
      keyReg := h.keyReg.other nameAt_movable hA (by simp) (by simp) (by simp)
      valReg := h.valReg.other nameAt_movable hA (by simp) (by simp) (by simp)
      tagMap := h.tagMap.other hA (fun _ => (by simp)) (by simp)
      boolMap := h.boolMap.other hA (fun _ => (by simp)) (by simp)
      keyMap := h.keyMap.other hA (fun _ => (by simp)) (by simp)
      valMap := h.valMap.other hA (fun _ => (by simp)) (by simp)
      few := h.few
      led := by
        have e : MDom.ledger (MDom.norm { M with fc := s' }) = MDom.ledger M.norm + (12 * (l.length : Int) - nook l.length) := by
          unfold MDom.ledger MDom.norm
          dsimp only
          rw [hcap, show M.fc.norm.cap = 0 from hMn, hnz]
          ring
        rw [e]
        have e2 := nook_le (show (0 : Int) ≤ (l.length : Int) by omega)
        unfold Dom.textLen at *
        simp only [hd, List.map_nil, List.sum_nil] at *
        try dsimp only at *
        omega }

theorem Rep.dupPc {V : MEnv} {own : Int → Owner} {x : Int} {src M : MDom} {a : Arena} {d : Dom} (h : Rep V own x M.norm a d)
    {l : List Row} (hs : Source V ⟨4, 2⟩ RowAt src.pc l) (hM : M.pc = .empty) (hd : d.pc = []) :
    CopyRuns V (x + 8) (copyPc src M a) { d with pc := l } := by
  have hcaps := h.caps
  have hled := h.led
  have hst := h.stop
  have hMn : M.norm.pc.cap = 0 := by show M.pc.norm.cap = 0; rw [hM]; rfl
  have hnz : nook 0 = 0 := rfl
  have hnn := nook_nonneg (l.length : Int)
  unfold copyPc
  rcases copy_rep (o := .arr 2) rowAt_movable kind_4 (by decide) (by decide) (by decide) hs h with ⟨hj, hs'⟩ | ⟨s', a', he, hdoom, hs'⟩ | ⟨s', a', own', he, hr, hA, hl, hcap⟩
  · left
    rw [hj]
    refine ⟨rfl, ?_⟩
    rw [hst] at hs'
    unfold MDom.ledger at hled
    unfold Dom.bytes Dom.textLen
    unfold Dom.textLen at hled
    rw [hMn, hnz] at hled
    simp only [hd, List.length_nil, List.map_nil, List.sum_nil] at *
    try dsimp only at *
    push_cast at *
    omega
  · right; left
    rw [he]
    refine ⟨_, _, rfl, hdoom, ?_⟩
    rw [hst] at hs'
    unfold MDom.ledger at hled
    unfold Dom.bytes Dom.textLen
    unfold Dom.textLen at hled
    rw [hMn, hnz] at hled
    simp only [hd, List.length_nil, List.map_nil, List.sum_nil] at *
    try dsimp only at *
    push_cast at *
    omega
  · right; right
    rw [he]
    refine ⟨_, _, own', rfl, ?_⟩
    exact {
      pos := h.pos
      lo := h.lo.trans hA.beg
      above := h.above.trans hA.beg
      top := hA.top
      stop := hA.stop.trans h.stop
      max := h.max
      free := hA.freed h.free
      out := hA.out (by simp) h.out
      oth := hA.oth (by simp) h.oth
      nodes := h.nodes.other nodeAt_movable hA (by simp) (by simp) (by simp)
      fc := h.fc.other rowAt_movable hA (by simp) (by simp) (by simp)
      pc := hr
      nn := h.nn.other rowAt_movable hA (by simp) (by simp) (by simp)
      boolProps := h.boolProps.other rowAt_movable hA (by simp) (by simp) (by simp)
      props := h.props.other propAt_movable hA (by simp) (by simp) (by simp)
      tagReg := h.tagReg.other tagAt_movable hA (by simp) (by simp) (by simp)
      boolReg := h.boolReg.other nameAt_movable hA (by simp) (by simp) (by simp)
      keyReg := h.keyReg.other nameAt_movable hA (by simp) (by simp) (by simp)
      valReg := h.valReg.other nameAt_movable hA (by simp) (by simp) (by simp)
      tagMap := h.tagMap.other hA (fun _ => (by simp)) (by simp)
      boolMap := h.boolMap.other hA (fun _ => (by simp)) (by simp)
      keyMap := h.keyMap.other hA (fun _ => (by simp)) (by simp)
      valMap := h.valMap.other hA (fun _ => (by simp)) (by simp)
      few := h.few
      led := by
        have e : MDom.ledger (MDom.norm { M with pc := s' }) = MDom.ledger M.norm + (12 * (l.length : Int) - nook l.length) := by
          unfold MDom.ledger MDom.norm
          dsimp only
          rw [hcap, show M.pc.norm.cap = 0 from hMn, hnz]
          ring
        rw [e]
        have e2 := nook_le (show (0 : Int) ≤ (l.length : Int) by omega)
        unfold Dom.textLen at *
        simp only [hd, List.map_nil, List.sum_nil] at *
        try dsimp only at *
        omega }

theorem Rep.dupNn {V : MEnv} {own : Int → Owner} {x : Int} {src M : MDom} {a : Arena} {d : Dom} (h : Rep V own x M.norm a d)
    {l : List Row} (hs : Source V ⟨4, 2⟩ RowAt src.nn l) (hM : M.nn = .empty) (hd : d.nn = []) :
    CopyRuns V (x + 8) (copyNn src M a) { d with nn := l } := by
  have hcaps := h.caps
  have hled := h.led
  have hst := h.stop
  have hMn : M.norm.nn.cap = 0 := by show M.nn.norm.cap = 0; rw [hM]; rfl
  have hnz : nook 0 = 0 := rfl
  have hnn := nook_nonneg (l.length : Int)
  unfold copyNn
  rcases copy_rep (o := .arr 3) rowAt_movable kind_4 (by decide) (by decide) (by decide) hs h with ⟨hj, hs'⟩ | ⟨s', a', he, hdoom, hs'⟩ | ⟨s', a', own', he, hr, hA, hl, hcap⟩
  · left
    rw [hj]
    refine ⟨rfl, ?_⟩
    rw [hst] at hs'
    unfold MDom.ledger at hled
    unfold Dom.bytes Dom.textLen
    unfold Dom.textLen at hled
    rw [hMn, hnz] at hled
    simp only [hd, List.length_nil, List.map_nil, List.sum_nil] at *
    try dsimp only at *
    push_cast at *
    omega
  · right; left
    rw [he]
    refine ⟨_, _, rfl, hdoom, ?_⟩
    rw [hst] at hs'
    unfold MDom.ledger at hled
    unfold Dom.bytes Dom.textLen
    unfold Dom.textLen at hled
    rw [hMn, hnz] at hled
    simp only [hd, List.length_nil, List.map_nil, List.sum_nil] at *
    try dsimp only at *
    push_cast at *
    omega
  · right; right
    rw [he]
    refine ⟨_, _, own', rfl, ?_⟩
    exact {
      pos := h.pos
      lo := h.lo.trans hA.beg
      above := h.above.trans hA.beg
      top := hA.top
      stop := hA.stop.trans h.stop
      max := h.max
      free := hA.freed h.free
      out := hA.out (by simp) h.out
      oth := hA.oth (by simp) h.oth
      nodes := h.nodes.other nodeAt_movable hA (by simp) (by simp) (by simp)
      fc := h.fc.other rowAt_movable hA (by simp) (by simp) (by simp)
      pc := h.pc.other rowAt_movable hA (by simp) (by simp) (by simp)
      nn := hr
      boolProps := h.boolProps.other rowAt_movable hA (by simp) (by simp) (by simp)
      props := h.props.other propAt_movable hA (by simp) (by simp) (by simp)
      tagReg := h.tagReg.other tagAt_movable hA (by simp) (by simp) (by simp)
      boolReg := h.boolReg.other nameAt_movable hA (by simp) (by simp) (by simp)
      keyReg := h.keyReg.other nameAt_movable hA (by simp) (by simp) (by simp)
      valReg := h.valReg.other nameAt_movable hA (by simp) (by simp) (by simp)
      tagMap := h.tagMap.other hA (fun _ => (by simp)) (by simp)
      boolMap := h.boolMap.other hA (fun _ => (by simp)) (by simp)
      keyMap := h.keyMap.other hA (fun _ => (by simp)) (by simp)
      valMap := h.valMap.other hA (fun _ => (by simp)) (by simp)
      few := h.few
      led := by
        have e : MDom.ledger (MDom.norm { M with nn := s' }) = MDom.ledger M.norm + (12 * (l.length : Int) - nook l.length) := by
          unfold MDom.ledger MDom.norm
          dsimp only
          rw [hcap, show M.nn.norm.cap = 0 from hMn, hnz]
          ring
        rw [e]
        have e2 := nook_le (show (0 : Int) ≤ (l.length : Int) by omega)
        unfold Dom.textLen at *
        simp only [hd, List.map_nil, List.sum_nil] at *
        try dsimp only at *
        omega }

theorem Rep.dupBoolProps {V : MEnv} {own : Int → Owner} {x : Int} {src M : MDom} {a : Arena} {d : Dom} (h : Rep V own x M.norm a d)
    {l : List Row} (hs : Source V ⟨4, 2⟩ RowAt src.boolProps l) (hM : M.boolProps = .empty) (hd : d.boolProps = []) :
    CopyRuns V (x + 8) (copyBoolProps src M a) { d with boolProps := l } := by
  have hcaps := h.caps
  have hled := h.led
  have hst := h.stop
  have hMn : M.norm.boolProps.cap = 0 := by show M.boolProps.norm.cap = 0; rw [hM]; rfl
  have hnz : nook 0 = 0 := rfl
  have hnn := nook_nonneg (l.length : Int)
  unfold copyBoolProps
  rcases copy_rep (o := .arr 4) rowAt_movable kind_4 (by decide) (by decide) (by decide) hs h with ⟨hj, hs'⟩ | ⟨s', a', he, hdoom, hs'⟩ | ⟨s', a', own', he, hr, hA, hl, hcap⟩
  · left
    rw [hj]
    refine ⟨rfl, ?_⟩
    rw [hst] at hs'
    unfold MDom.ledger at hled
    unfold Dom.bytes Dom.textLen
    unfold Dom.textLen at hled
    rw [hMn, hnz] at hled
    simp only [hd, List.length_nil, List.map_nil, List.sum_nil] at *
    try dsimp only at *
    push_cast at *
    omega
  · right; left
    rw [he]
    refine ⟨_, _, rfl, hdoom, ?_⟩
    rw [hst] at hs'
    unfold MDom.ledger at hled
    unfold Dom.bytes Dom.textLen
    unfold Dom.textLen at hled
    rw [hMn, hnz] at hled
    simp only [hd, List.length_nil, List.map_nil, List.sum_nil] at *
    try dsimp only at *
    push_cast at *
    omega
  · right; right
    rw [he]
    refine ⟨_, _, own', rfl, ?_⟩
    exact {
      pos := h.pos
      lo := h.lo.trans hA.beg
      above := h.above.trans hA.beg
      top := hA.top
      stop := hA.stop.trans h.stop
      max := h.max
      free := hA.freed h.free
      out := hA.out (by simp) h.out
      oth := hA.oth (by simp) h.oth
      nodes := h.nodes.other nodeAt_movable hA (by simp) (by simp) (by simp)
      fc := h.fc.other rowAt_movable hA (by simp) (by simp) (by simp)
      pc := h.pc.other rowAt_movable hA (by simp) (by simp) (by simp)
      nn := h.nn.other rowAt_movable hA (by simp) (by simp) (by simp)
      boolProps := hr
      props := h.props.other propAt_movable hA (by simp) (by simp) (by simp)
      tagReg := h.tagReg.other tagAt_movable hA (by simp) (by simp) (by simp)
      boolReg := h.boolReg.other nameAt_movable hA (by simp) (by simp) (by simp)
      keyReg := h.keyReg.other nameAt_movable hA (by simp) (by simp) (by simp)
      valReg := h.valReg.other nameAt_movable hA (by simp) (by simp) (by simp)
      tagMap := h.tagMap.other hA (fun _ => (by simp)) (by simp)
      boolMap := h.boolMap.other hA (fun _ => (by simp)) (by simp)
      keyMap := h.keyMap.other hA (fun _ => (by simp)) (by simp)
      valMap := h.valMap.other hA (fun _ => (by simp)) (by simp)
      few := h.few
      led := by
        have e : MDom.ledger (MDom.norm { M with boolProps := s' }) = MDom.ledger M.norm + (12 * (l.length : Int) - nook l.length) := by
          unfold MDom.ledger MDom.norm
          dsimp only
          rw [hcap, show M.boolProps.norm.cap = 0 from hMn, hnz]
          ring
        rw [e]
        have e2 := nook_le (show (0 : Int) ≤ (l.length : Int) by omega)
        unfold Dom.textLen at *
        simp only [hd, List.map_nil, List.sum_nil] at *
        try dsimp only at *
        omega }

theorem Rep.dupProps {V : MEnv} {own : Int → Owner} {x : Int} {src M : MDom} {a : Arena} {d : Dom} (h : Rep V own x M.norm a d)
    {l : List PropRow} (hs : Source V ⟨6, 2⟩ PropAt src.props l) (hM : M.props = .empty) (hd : d.props = []) :
    CopyRuns V (x + 8) (copyProps src M a) { d with props := l } := by
  have hcaps := h.caps
  have hled := h.led
  have hst := h.stop
  have hMn : M.norm.props.cap = 0 := by show M.props.norm.cap = 0; rw [hM]; rfl
  have hnz : nook 0 = 0 := rfl
  have hnn := nook_nonneg (l.length : Int)
  unfold copyProps
  rcases copy_rep (o := .arr 5) propAt_movable kind_6 (by decide) (by decide) (by decide) hs h with ⟨hj, hs'⟩ | ⟨s', a', he, hdoom, hs'⟩ | ⟨s', a', own', he, hr, hA, hl, hcap⟩
  · left
    rw [hj]
    refine ⟨rfl, ?_⟩
    rw [hst] at hs'
    unfold MDom.ledger at hled
    unfold Dom.bytes Dom.textLen
    unfold Dom.textLen at hled
    rw [hMn, hnz] at hled
    simp only [hd, List.length_nil, List.map_nil, List.sum_nil] at *
    try dsimp only at *
    push_cast at *
    omega
  · right; left
    rw [he]
    refine ⟨_, _, rfl, hdoom, ?_⟩
    rw [hst] at hs'
    unfold MDom.ledger at hled
    unfold Dom.bytes Dom.textLen
    unfold Dom.textLen at hled
    rw [hMn, hnz] at hled
    simp only [hd, List.length_nil, List.map_nil, List.sum_nil] at *
    try dsimp only at *
    push_cast at *
    omega
  · right; right
    rw [he]
    refine ⟨_, _, own', rfl, ?_⟩
    exact {
      pos := h.pos
      lo := h.lo.trans hA.beg
      above := h.above.trans hA.beg
      top := hA.top
      stop := hA.stop.trans h.stop
      max := h.max
      free := hA.freed h.free
      out := hA.out (by simp) h.out
      oth := hA.oth (by simp) h.oth
      nodes := h.nodes.other nodeAt_movable hA (by simp) (by simp) (by simp)
      fc := h.fc.other rowAt_movable hA (by simp) (by simp) (by simp)
      pc := h.pc.other rowAt_movable hA (by simp) (by simp) (by simp)
      nn := h.nn.other rowAt_movable hA (by simp) (by simp) (by simp)
      boolProps := h.boolProps.other rowAt_movable hA (by simp) (by simp) (by simp)
      props := hr
      tagReg := h.tagReg.other tagAt_movable hA (by simp) (by simp) (by simp)
      boolReg := h.boolReg.other nameAt_movable hA (by simp) (by simp) (by simp)
      keyReg := h.keyReg.other nameAt_movable hA (by simp) (by simp) (by simp)
      valReg := h.valReg.other nameAt_movable hA (by simp) (by simp) (by simp)
      tagMap := h.tagMap.other hA (fun _ => (by simp)) (by simp)
      boolMap := h.boolMap.other hA (fun _ => (by simp)) (by simp)
      keyMap := h.keyMap.other hA (fun _ => (by simp)) (by simp)
      valMap := h.valMap.other hA (fun _ => (by simp)) (by simp)
      few := h.few
      led := by
        have e : MDom.ledger (MDom.norm { M with props := s' }) = MDom.ledger M.norm + (16 * (l.length : Int) - nook l.length) := by
          unfold MDom.ledger MDom.norm
          dsimp only
          rw [hcap, show M.props.norm.cap = 0 from hMn, hnz]
          ring
        rw [e]
        have e2 := nook_le (show (0 : Int) ≤ (l.length : Int) by omega)
        unfold Dom.textLen at *
        simp only [hd, List.map_nil, List.sum_nil] at *
        try dsimp only at *
        omega }

theorem Rep.dupTagReg {V : MEnv} {own : Int → Owner} {x : Int} {src M : MDom} {a : Arena} {d : Dom} (h : Rep V own x M.norm a d)
    {l : List (Str × Bool)} (hs : Source V ⟨24, 8⟩ TagAt src.tagReg l) (hM : M.tagReg = .empty) (hd : d.tagReg = []) :
    CopyRuns V (x + 8) (copyTagReg src M a) { d with tagReg := l } := by
  have hcaps := h.caps
  have hled := h.led
  have hst := h.stop
  have hMn : M.norm.tagReg.cap = 0 := by show M.tagReg.norm.cap = 0; rw [hM]; rfl
  have hnz : nook 0 = 0 := rfl
  have hnn := nook_nonneg (l.length : Int)
  unfold copyTagReg
  rcases copy_rep (o := .arr 6) tagAt_movable kind_24 (by decide) (by decide) (by decide) hs h with ⟨hj, hs'⟩ | ⟨s', a', he, hdoom, hs'⟩ | ⟨s', a', own', he, hr, hA, hl, hcap⟩
  · left
    rw [hj]
    refine ⟨rfl, ?_⟩
    rw [hst] at hs'
    unfold MDom.ledger at hled
    unfold Dom.bytes Dom.textLen
    unfold Dom.textLen at hled
    rw [hMn, hnz] at hled
    simp only [hd, List.length_nil, List.map_nil, List.sum_nil] at *
    try dsimp only at *
    push_cast at *
    omega
  · right; left
    rw [he]
    refine ⟨_, _, rfl, hdoom, ?_⟩
    rw [hst] at hs'
    unfold MDom.ledger at hled
    unfold Dom.bytes Dom.textLen
    unfold Dom.textLen at hled
    rw [hMn, hnz] at hled
    simp only [hd, List.length_nil, List.map_nil, List.sum_nil] at *
    try dsimp only at *
    push_cast at *
    omega
  · right; right
    rw [he]
    refine ⟨_, _, own', rfl, ?_⟩
    exact {
      pos := h.pos
      lo := h.lo.trans hA.beg
      above := h.above.trans hA.beg
      top := hA.top
      stop := hA.stop.trans h.stop
      max := h.max
      free := hA.freed h.free
      out := hA.out (by simp) h.out
      oth := hA.oth (by simp) h.oth
      nodes := h.nodes.other nodeAt_movable hA (by simp) (by simp) (by simp)
      fc := h.fc.other rowAt_movable hA (by simp) (by simp) (by simp)
      pc := h.pc.other rowAt_movable hA (by simp) (by simp) (by simp)
      nn := h.nn.other rowAt_movable hA (by simp) (by simp) (by simp)
      boolProps := h.boolProps.other rowAt_movable hA (by simp) (by simp) (by simp)
      props := h.props.other propAt_movable hA (by simp) (by simp) (by simp)
      tagReg := hr
      boolReg := h.boolReg.other nameAt_movable hA (by simp) (by simp) (by simp)
      keyReg := h.keyReg.other nameAt_movable hA (by simp) (by simp) (by simp)
      valReg := h.valReg.other nameAt_movable hA (by simp) (by simp) (by simp)
      tagMap := h.tagMap.other hA (fun _ => (by simp)) (by simp)
      boolMap := h.boolMap.other hA (fun _ => (by simp)) (by simp)
      keyMap := h.keyMap.other hA (fun _ => (by simp)) (by simp)
      valMap := h.valMap.other hA (fun _ => (by simp)) (by simp)
      few := h.few
      led := by
        have e : MDom.ledger (MDom.norm { M with tagReg := s' }) = MDom.ledger M.norm + (52 * (l.length : Int) - nook l.length) := by
          unfold MDom.ledger MDom.norm
          dsimp only
          rw [hcap, show M.tagReg.norm.cap = 0 from hMn, hnz]
          ring
        rw [e]
        have e2 := nook_le (show (0 : Int) ≤ (l.length : Int) by omega)
        unfold Dom.textLen at *
        simp only [hd, List.map_nil, List.sum_nil] at *
        try dsimp only at *
        omega }

theorem Rep.dupBoolReg {V : MEnv} {own : Int → Owner} {x : Int} {src M : MDom} {a : Arena} {d : Dom} (h : Rep V own x M.norm a d)
    {l : List Str} (hs : Source V ⟨16, 8⟩ NameAt src.boolReg l) (hM : M.boolReg = .empty) (hd : d.boolReg = []) :
    CopyRuns V (x + 8) (copyBoolReg src M a) { d with boolReg := l } := by
  have hcaps := h.caps
  have hled := h.led
  have hst := h.stop
  have hMn : M.norm.boolReg.cap = 0 := by show M.boolReg.norm.cap = 0; rw [hM]; rfl
  have hnz : nook 0 = 0 := rfl
  have hnn := nook_nonneg (l.length : Int)
  unfold copyBoolReg
  rcases copy_rep (o := .arr 7) nameAt_movable kind_16 (by decide) (by decide) (by decide) hs h with ⟨hj, hs'⟩ | ⟨s', a', he, hdoom, hs'⟩ | ⟨s', a', own', he, hr, hA, hl, hcap⟩
  · left
    rw [hj]
    refine ⟨rfl, ?_⟩
    rw [hst] at hs'
    unfold MDom.ledger at hled
    unfold Dom.bytes Dom.textLen
    unfold Dom.textLen at hled
    rw [hMn, hnz] at hled
    simp only [hd, List.length_nil, List.map_nil, List.sum_nil] at *
    try dsimp only at *
    push_cast at *
    omega
  · right; left
    rw [he]
    refine ⟨_, _, rfl, hdoom, ?_⟩
    rw [hst] at hs'
    unfold MDom.ledger at hled
    unfold Dom.bytes Dom.textLen
    unfold Dom.textLen at hled
    rw [hMn, hnz] at hled
    simp only [hd, List.length_nil, List.map_nil, List.sum_nil] at *
    try dsimp only at *
    push_cast at *
    omega
  · right; right
    rw [he]
    refine ⟨_, _, own', rfl, ?_⟩
    exact {
      pos := h.pos
      lo := h.lo.trans hA.beg
      above := h.above.trans hA.beg
      top := hA.top
      stop := hA.stop.trans h.stop
      max := h.max
      free := hA.freed h.free
      out := hA.out (by simp) h.out
      oth := hA.oth (by simp) h.oth
      nodes := h.nodes.other nodeAt_movable hA (by simp) (by simp) (by simp)
      fc := h.fc.other rowAt_movable hA (by simp) (by simp) (by simp)
      pc := h.pc.other rowAt_movable hA (by simp) (by simp) (by simp)
      nn := h.nn.other rowAt_movable hA (by simp) (by simp) (by simp)
      boolProps := h.boolProps.other rowAt_movable hA (by simp) (by simp) (by simp)
      props := h.props.other propAt_movable hA (by simp) (by simp) (by simp)
      tagReg := h.tagReg.other tagAt_movable hA (by simp) (by simp) (by simp)
      boolReg := hr
      keyReg := h.keyReg.other nameAt_movable hA (by simp) (by simp) (by simp)
      valReg := h.valReg.other nameAt_movable hA (by simp) (by simp) (by simp)
      tagMap := h.tagMap.other hA (fun _ => (by simp)) (by simp)
      boolMap := h.boolMap.other hA (fun _ => (by simp)) (by simp)
      keyMap := h.keyMap.other hA (fun _ => (by simp)) (by simp)
      valMap := h.valMap.other hA (fun _ => (by simp)) (by simp)
      few := h.few
      led := by
        have e : MDom.ledger (MDom.norm { M with boolReg := s' }) = MDom.ledger M.norm + (36 * (l.length : Int) - nook l.length) := by
          unfold MDom.ledger MDom.norm
          dsimp only
          rw [hcap, show M.boolReg.norm.cap = 0 from hMn, hnz]
          ring
        rw [e]
        have e2 := nook_le (show (0 : Int) ≤ (l.length : Int) by omega)
        unfold Dom.textLen at *
        simp only [hd, List.map_nil, List.sum_nil] at *
        try dsimp only at *
        omega }

theorem Rep.dupKeyReg {V : MEnv} {own : Int → Owner} {x : Int} {src M : MDom} {a : Arena} {d : Dom} (h : Rep V own x M.norm a d)
    {l : List Str} (hs : Source V ⟨16, 8⟩ NameAt src.keyReg l) (hM : M.keyReg = .empty) (hd : d.keyReg = []) :
    CopyRuns V (x + 8) (copyKeyReg src M a) { d with keyReg := l } := by
  have hcaps := h.caps
  have hled := h.led
  have hst := h.stop
  have hMn : M.norm.keyReg.cap = 0 := by show M.keyReg.norm.cap = 0; rw [hM]; rfl
  have hnz : nook 0 = 0 := rfl
  have hnn := nook_nonneg (l.length : Int)
  unfold copyKeyReg
  rcases copy_rep (o := .arr 8) nameAt_movable kind_16 (by decide) (by decide) (by decide) hs h with ⟨hj, hs'⟩ | ⟨s', a', he, hdoom, hs'⟩ | ⟨s', a', own', he, hr, hA, hl, hcap⟩
  · left
    rw [hj]
    refine ⟨rfl, ?_⟩
    rw [hst] at hs'
    unfold MDom.ledger at hled
    unfold Dom.bytes Dom.textLen
    unfold Dom.textLen at hled
    rw [hMn, hnz] at hled
    simp only [hd, List.length_nil, List.map_nil, List.sum_nil] at *
    try dsimp only at *
    push_cast at *
    omega
  · right; left
    rw [he]
    refine ⟨_, _, rfl, hdoom, ?_⟩
    rw [hst] at hs'
    unfold MDom.ledger at hled
    unfold Dom.bytes Dom.textLen
    unfold Dom.textLen at hled
    rw [hMn, hnz] at hled
    simp only [hd, List.length_nil, List.map_nil, List.sum_nil] at *
    try dsimp only at *
    push_cast at *
    omega
  · right; right
    rw [he]
    refine ⟨_, _, own', rfl, ?_⟩
    exact {
      pos := h.pos
      lo := h.lo.trans hA.beg
      above := h.above.trans hA.beg
      top := hA.top
      stop := hA.stop.trans h.stop
      max := h.max
      free := hA.freed h.free
      out := hA.out (by simp) h.out
      oth := hA.oth (by simp) h.oth
      nodes := h.nodes.other nodeAt_movable hA (by simp) (by simp) (by simp)
      fc := h.fc.other rowAt_movable hA (by simp) (by simp) (by simp)
      pc := h.pc.other rowAt_movable hA (by simp) (by simp) (by simp)
      nn := h.nn.other rowAt_movable hA (by simp) (by simp) (by simp)
      boolProps := h.boolProps.other rowAt_movable hA (by simp) (by simp) (by simp)
      props := h.props.other propAt_movable hA (by simp) (by simp) (by simp)
      tagReg := h.tagReg.other tagAt_movable hA (by simp) (by simp) (by simp)
      boolReg := h.boolReg.other nameAt_movable hA (by simp) (by simp) (by simp)
      keyReg := hr
      valReg := h.valReg.other nameAt_movable hA (by simp) (by simp) (by simp)
      tagMap := h.tagMap.other hA (fun _ => (by simp)) (by simp)
      boolMap := h.boolMap.other hA (fun _ => (by simp)) (by simp)
      keyMap := h.keyMap.other hA (fun _ => (by simp)) (by simp)
      valMap := h.valMap.other hA (fun _ => (by simp)) (by simp)
      few := h.few
      led := by
        have e : MDom.ledger (MDom.norm { M with keyReg := s' }) = MDom.ledger M.norm + (36 * (l.length : Int) - nook l.length) := by
          unfold MDom.ledger MDom.norm
          dsimp only
          rw [hcap, show M.keyReg.norm.cap = 0 from hMn, hnz]
          ring
        rw [e]
        have e2 := nook_le (show (0 : Int) ≤ (l.length : Int) by omega)
        unfold Dom.textLen at *
        simp only [hd, List.map_nil, List.sum_nil] at *
        try dsimp only at *
        omega }

theorem Rep.dupValReg {V : MEnv} {own : Int → Owner} {x : Int} {src M : MDom} {a : Arena} {d : Dom} (h : Rep V own x M.norm a d)
    {l : List Str} (hs : Source V ⟨16, 8⟩ NameAt src.valReg l) (hM : M.valReg = .empty) (hd : d.valReg = []) :
    CopyRuns V (x + 8) (copyValReg src M a) { d with valReg := l } := by
  have hcaps := h.caps
  have hled := h.led
  have hst := h.stop
  have hMn : M.norm.valReg.cap = 0 := by show M.valReg.norm.cap = 0; rw [hM]; rfl
  have hnz : nook 0 = 0 := rfl
  have hnn := nook_nonneg (l.length : Int)
  unfold copyValReg
  rcases copy_rep (o := .arr 9) nameAt_movable kind_16 (by decide) (by decide) (by decide) hs h with ⟨hj, hs'⟩ | ⟨s', a', he, hdoom, hs'⟩ | ⟨s', a', own', he, hr, hA, hl, hcap⟩
  · left
    rw [hj]
    refine ⟨rfl, ?_⟩
    rw [hst] at hs'
    unfold MDom.ledger at hled
    unfold Dom.bytes Dom.textLen
    unfold Dom.textLen at hled
    rw [hMn, hnz] at hled
    simp only [hd, List.length_nil, List.map_nil, List.sum_nil] at *
    try dsimp only at *
    push_cast at *
    omega
  · right; left
    rw [he]
    refine ⟨_, _, rfl, hdoom, ?_⟩
    rw [hst] at hs'
    unfold MDom.ledger at hled
    unfold Dom.bytes Dom.textLen
    unfold Dom.textLen at hled
    rw [hMn, hnz] at hled
    simp only [hd, List.length_nil, List.map_nil, List.sum_nil] at *
    try dsimp only at *
    push_cast at *
    omega
  · right; right
    rw [he]
    refine ⟨_, _, own', rfl, ?_⟩
    exact {
      pos := h.pos
      lo := h.lo.trans hA.beg
      above := h.above.trans hA.beg
      top := hA.top
      stop := hA.stop.trans h.stop
      max := h.max
      free := hA.freed h.free
      out := hA.out (by simp) h.out
      oth := hA.oth (by simp) h.oth
      nodes := h.nodes.other nodeAt_movable hA (by simp) (by simp) (by simp)
      fc := h.fc.other rowAt_movable hA (by simp) (by simp) (by simp)
      pc := h.pc.other rowAt_movable hA (by simp) (by simp) (by simp)
      nn := h.nn.other rowAt_movable hA (by simp) (by simp) (by simp)
      boolProps := h.boolProps.other rowAt_movable hA (by simp) (by simp) (by simp)
      props := h.props.other propAt_movable hA (by simp) (by simp) (by simp)
      tagReg := h.tagReg.other tagAt_movable hA (by simp) (by simp) (by simp)
      boolReg := h.boolReg.other nameAt_movable hA (by simp) (by simp) (by simp)
      keyReg := h.keyReg.other nameAt_movable hA (by simp) (by simp) (by simp)
      valReg := hr
      tagMap := h.tagMap.other hA (fun _ => (by simp)) (by simp)
      boolMap := h.boolMap.other hA (fun _ => (by simp)) (by simp)
      keyMap := h.keyMap.other hA (fun _ => (by simp)) (by simp)
      valMap := h.valMap.other hA (fun _ => (by simp)) (by simp)
      few := h.few
      led := by
        have e : MDom.ledger (MDom.norm { M with valReg := s' }) = MDom.ledger M.norm + (36 * (l.length : Int) - nook l.length) := by
          unfold MDom.ledger MDom.norm
          dsimp only
          rw [hcap, show M.valReg.norm.cap = 0 from hMn, hnz]
          ring
        rw [e]
        have e2 := nook_le (show (0 : Int) ≤ (l.length : Int) by omega)
        unfold Dom.textLen at *
        simp only [hd, List.map_nil, List.sum_nil] at *
        try dsimp only at *
        omega }

end Flo
