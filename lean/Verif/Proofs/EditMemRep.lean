import Verif.Model.EditMem
import Verif.Proofs.DomMemRead
/-!
# Editing in memory: writing to the tables
-/
namespace Flo
open Spec

/-! ## Rows -/

theorem rowAt_write {r' : Row} (h1 : r'.1 < 65536) (h2 : r'.2 < 65536) (mem : Int → UInt8) (own : Int → Owner) (p : Int) (i : Nat) :
    RowAt (memWrite (p + 0) (encRow r') mem) own p i r' := by
  rw [Int.add_zero]; exact rowAt_enc h1 h2 mem own p i

theorem rowAt_write2 {r : Row} {v : Nat} (hv : v < 65536) (mem : Int → UInt8) (own : Int → Owner) (p : Int) (i : Nat) (h : RowAt mem own p i r) :
    RowAt (memWrite (p + 2) (leBytes 2 v) mem) own p i (r.1, v) := by
  have hl := leBytes_length 2 v
  refine ⟨?_, ?_⟩
  · rw [readLE_other (by rw [hl]; push_cast; omega)]; exact h.1
  · have := readLE_write (m := mem) (p := p + 2) (q := p + 2) (pre := []) (post := []) (n := 2) (v := v) (by omega) (by simp)
    rw [List.nil_append, List.append_nil] at this
    exact this

theorem rowAt_write1 {r : Row} {v : Nat} (hv : v < 65536) (mem : Int → UInt8) (own : Int → Owner) (p : Int) (i : Nat) (h : RowAt mem own p i r) :
    RowAt (memWrite (p + 0) (leBytes 2 v) mem) own p i (v, r.2) := by
  have hl := leBytes_length 2 v
  rw [Int.add_zero]
  refine ⟨?_, ?_⟩
  · have := readLE_write (m := mem) (p := p) (q := p) (pre := []) (post := []) (n := 2) (v := v) (by omega) (by simp)
    rw [List.nil_append, List.append_nil] at this
    exact this
  · rw [readLE_other (by rw [hl]; push_cast; omega)]; exact h.2

theorem propAt_zero (mem : Int → UInt8) (own : Int → Owner) (p : Int) (i : Nat) :
    PropAt (memWrite (p + 0) (encProp ⟨0, 0, 0⟩) mem) own p i ⟨0, 0, 0⟩ := by
  rw [Int.add_zero]; exact propAt_enc (by decide) (by decide) (by decide) mem own p i

theorem propAt_write4 {r : PropRow} {v : Nat} (hv : v < 65536) (mem : Int → UInt8) (own : Int → Owner) (p : Int) (i : Nat) (h : PropAt mem own p i r) :
    PropAt (memWrite (p + 4) (leBytes 2 v) mem) own p i { r with value := v } := by
  have hl := leBytes_length 2 v
  refine ⟨?_, ?_, ?_⟩
  · rw [readLE_other (by rw [hl]; push_cast; omega)]; exact h.1
  · rw [readLE_other (by rw [hl]; push_cast; omega)]; exact h.2.1
  · have := readLE_write (m := mem) (p := p + 4) (q := p + 4) (pre := []) (post := []) (n := 2) (v := v) (by omega) (by simp)
    rw [List.nil_append, List.append_nil] at this
    exact this

theorem poke_type {mem : Int → UInt8} {own : Int → Owner} {p : Int} {n : Nat} {nd : Node} (t : NodeType) (h : NodeAt mem own p n nd)
    (hf : Fixed own own mem (memWrite (p + 4) (leBytes 4 t.code) mem)) :
    NodeAt (memWrite (p + 4) (leBytes 4 t.code) mem) own p n { nd with type := t } := by
  obtain ⟨h1, h2, h3⟩ := h
  have hl := leBytes_length 4 t.code
  refine ⟨?_, ?_, ?_⟩
  · rw [readLE_other (by rw [hl]; push_cast; omega)]; exact h1
  · have := readLE_write (m := mem) (p := p + 4) (q := p + 4) (pre := []) (post := []) (n := 4) (v := t.code) (by have := code_lt t; omega) (by simp)
    rw [List.nil_append, List.append_nil] at this
    exact this
  · dsimp only
    cases hp : nd.payload with
    | tag t => rw [hp] at h3; dsimp only at h3 ⊢; rw [readLE_other (by rw [hl]; push_cast; omega)]; exact h3
    | text s =>
      rw [hp] at h3; dsimp only at h3 ⊢
      exact StrIn.move h3 hf fun j h0 h1 => memWrite_out (by rw [hl]; push_cast; omega)

/-! ## Writing one row -/

theorem Rep.setFc {V : MEnv} {own : Int → Owner} {x : Int} {M : MDom} {a : Arena} {d : Dom} (h : Rep V own x M a d) {i : Nat} {r r' : Row}
    (hi : d.fc[i]? = some r) {off : Int} {e : List UInt8} (h0 : 0 ≤ off) (hel : off + (e.length : Int) ≤ 4)
    (hnew : ∀ p, RowAt a.mem own p i r → RowAt (memWrite (p + off) e a.mem) own p i r') :
    ∃ a', arrPoke 4 i off e M.fc a = .ok a' ∧ Rep V own x M a' { d with fc := d.fc.set i r' } ∧ a'.beg = a.beg := by
  obtain ⟨a', he, hr, hA, hb⟩ := poke_rep (k := ⟨4, 2⟩) rowAt_movable h.fc h.top (by decide) (by decide) h0 hel hi (fun p hp _ => hnew p hp)
  refine ⟨a', he, ?_, hb⟩
  exact {
      pos := h.pos
      lo := h.lo.trans hA.beg
      above := h.above.trans hA.beg
      top := hA.top
      stop := hA.stop.trans h.stop
      max := h.max
      free := hA.freed h.free
      out := hA.out (by simp) h.out
      oth := hA.oth (by simp) h.oth
      nodes := h.nodes.other nodeAt_movable hA (by simp) (by simp) (by simp)
      fc := hr
      pc := h.pc.other rowAt_movable hA (by simp) (by simp) (by simp)
      nn := h.nn.other rowAt_movable hA (by simp) (by simp) (by simp)
      boolProps := h.boolProps.other rowAt_movable hA (by simp) (by simp) (by simp)
      props := h.props.other propAt_movable hA (by simp) (by simp) (by simp)
      tagReg := h.tagReg.other tagAt_movable hA (by simp) (by simp) (by simp)
      boolReg := h.boolReg.other nameAt_movable hA (by simp) (by simp) (by simp)
      keyReg := h.keyReg.other nameAt_movable hA (by simp) (by simp) (by simp)
      valReg := h.valReg.other nameAt_movable hA (by simp) (by simp) (by simp)
      tagMap := h.tagMap.other hA (fun _ => (by simp)) (by simp)
      boolMap := h.boolMap.other hA (fun _ => (by simp)) (by simp)
      keyMap := h.keyMap.other hA (fun _ => (by simp)) (by simp)
      valMap := h.valMap.other hA (fun _ => (by simp)) (by simp)
      few := h.few
      led := by
        have h2 := h.led
        unfold Dom.textLen at *
        dsimp only at *
        omega }

theorem Rep.setPc {V : MEnv} {own : Int → Owner} {x : Int} {M : MDom} {a : Arena} {d : Dom} (h : Rep V own x M a d) {i : Nat} {r r' : Row}
    (hi : d.pc[i]? = some r) {off : Int} {e : List UInt8} (h0 : 0 ≤ off) (hel : off + (e.length : Int) ≤ 4)
    (hnew : ∀ p, RowAt a.mem own p i r → RowAt (memWrite (p + off) e a.mem) own p i r') :
    ∃ a', arrPoke 4 i off e M.pc a = .ok a' ∧ Rep V own x M a' { d with pc := d.pc.set i r' } ∧ a'.beg = a.beg := by
  obtain ⟨a', he, hr, hA, hb⟩ := poke_rep (k := ⟨4, 2⟩) rowAt_movable h.pc h.top (by decide) (by decide) h0 hel hi (fun p hp _ => hnew p hp)
  refine ⟨a', he, ?_, hb⟩
  exact {
      pos := h.pos
      lo := h.lo.trans hA.beg
      above := h.above.trans hA.beg
      top := hA.top
      stop := hA.stop.trans h.stop
      max := h.max
      free := hA.freed h.free
      out := hA.out (by simp) h.out
      oth := hA.oth (by simp) h.oth
      nodes := h.nodes.other nodeAt_movable hA (by simp) (by simp) (by simp)
      fc := h.fc.other rowAt_movable hA (by simp) (by simp) (by simp)
      pc := hr
      nn := h.nn.other rowAt_movable hA (by simp) (by simp) (by simp)
      boolProps := h.boolProps.other rowAt_movable hA (by simp) (by simp) (by simp)
      props := h.props.other propAt_movable hA (by simp) (by simp) (by simp)
      tagReg := h.tagReg.other tagAt_movable hA (by simp) (by simp) (by simp)
      boolReg := h.boolReg.other nameAt_movable hA (by simp) (by simp) (by simp)
      keyReg := h.keyReg.other nameAt_movable hA (by simp) (by simp) (by simp)
      valReg := h.valReg.other nameAt_movable hA (by simp) (by simp) (by simp)
      tagMap := h.tagMap.other hA (fun _ => (by simp)) (by simp)
      boolMap := h.boolMap.other hA (fun _ => (by simp)) (by simp)
      keyMap := h.keyMap.other hA (fun _ => (by simp)) (by simp)
      valMap := h.valMap.other hA (fun _ => (by simp)) (by simp)
      few := h.few
      led := by
        have h2 := h.led
        unfold Dom.textLen at *
        dsimp only at *
        omega }

theorem Rep.setNn {V : MEnv} {own : Int → Owner} {x : Int} {M : MDom} {a : Arena} {d : Dom} (h : Rep V own x M a d) {i : Nat} {r r' : Row}
    (hi : d.nn[i]? = some r) {off : Int} {e : List UInt8} (h0 : 0 ≤ off) (hel : off + (e.length : Int) ≤ 4)
    (hnew : ∀ p, RowAt a.mem own p i r → RowAt (memWrite (p + off) e a.mem) own p i r') :
    ∃ a', arrPoke 4 i off e M.nn a = .ok a' ∧ Rep V own x M a' { d with nn := d.nn.set i r' } ∧ a'.beg = a.beg := by
  obtain ⟨a', he, hr, hA, hb⟩ := poke_rep (k := ⟨4, 2⟩) rowAt_movable h.nn h.top (by decide) (by decide) h0 hel hi (fun p hp _ => hnew p hp)
  refine ⟨a', he, ?_, hb⟩
  exact {
      pos := h.pos
      lo := h.lo.trans hA.beg
      above := h.above.trans hA.beg
      top := hA.top
      stop := hA.stop.trans h.stop
      max := h.max
      free := hA.freed h.free
      out := hA.out (by simp) h.out
      oth := hA.oth (by simp) h.oth
      nodes := h.nodes.other nodeAt_movable hA (by simp) (by simp) (by simp)
      fc := h.fc.other rowAt_movable hA (by simp) (by simp) (by simp)
      pc := h.pc.other rowAt_movable hA (by simp) (by simp) (by simp)
      nn := hr
      boolProps := h.boolProps.other rowAt_movable hA (by simp) (by simp) (by simp)
      props := h.props.other propAt_movable hA (by simp) (by simp) (by simp)
      tagReg := h.tagReg.other tagAt_movable hA (by simp) (by simp) (by simp)
      boolReg := h.boolReg.other nameAt_movable hA (by simp) (by simp) (by simp)
      keyReg := h.keyReg.other nameAt_movable hA (by simp) (by simp) (by simp)
      valReg := h.valReg.other nameAt_movable hA (by simp) (by simp) (by simp)
      tagMap := h.tagMap.other hA (fun _ => (by simp)) (by simp)
      boolMap := h.boolMap.other hA (fun _ => (by simp)) (by simp)
      keyMap := h.keyMap.other hA (fun _ => (by simp)) (by simp)
      valMap := h.valMap.other hA (fun _ => (by simp)) (by simp)
      few := h.few
      led := by
        have h2 := h.led
        unfold Dom.textLen at *
        dsimp only at *
        omega }

theorem Rep.setBoolProps {V : MEnv} {own : Int → Owner} {x : Int} {M : MDom} {a : Arena} {d : Dom} (h : Rep V own x M a d) {i : Nat} {r r' : Row}
    (hi : d.boolProps[i]? = some r) {off : Int} {e : List UInt8} (h0 : 0 ≤ off) (hel : off + (e.length : Int) ≤ 4)
    (hnew : ∀ p, RowAt a.mem own p i r → RowAt (memWrite (p + off) e a.mem) own p i r') :
    ∃ a', arrPoke 4 i off e M.boolProps a = .ok a' ∧ Rep V own x M a' { d with boolProps := d.boolProps.set i r' } ∧ a'.beg = a.beg := by
  obtain ⟨a', he, hr, hA, hb⟩ := poke_rep (k := ⟨4, 2⟩) rowAt_movable h.boolProps h.top (by decide) (by decide) h0 hel hi (fun p hp _ => hnew p hp)
  refine ⟨a', he, ?_, hb⟩
  exact {
      pos := h.pos
      lo := h.lo.trans hA.beg
      above := h.above.trans hA.beg
      top := hA.top
      stop := hA.stop.trans h.stop
      max := h.max
      free := hA.freed h.free
      out := hA.out (by simp) h.out
      oth := hA.oth (by simp) h.oth
      nodes := h.nodes.other nodeAt_movable hA (by simp) (by simp) (by simp)
      fc := h.fc.other rowAt_movable hA (by simp) (by simp) (by simp)
      pc := h.pc.other rowAt_movable hA (by simp) (by simp) (by simp)
      nn := h.nn.other rowAt_movable hA (by simp) (by simp) (by simp)
      boolProps := hr
      props := h.props.other propAt_movable hA (by simp) (by simp) (by simp)
      tagReg := h.tagReg.other tagAt_movable hA (by simp) (by simp) (by simp)
      boolReg := h.boolReg.other nameAt_movable hA (by simp) (by simp) (by simp)
      keyReg := h.keyReg.other nameAt_movable hA (by simp) (by simp) (by simp)
      valReg := h.valReg.other nameAt_movable hA (by simp) (by simp) (by simp)
      tagMap := h.tagMap.other hA (fun _ => (by simp)) (by simp)
      boolMap := h.boolMap.other hA (fun _ => (by simp)) (by simp)
      keyMap := h.keyMap.other hA (fun _ => (by simp)) (by simp)
      valMap := h.valMap.other hA (fun _ => (by simp)) (by simp)
      few := h.few
      led := by
        have h2 := h.led
        unfold Dom.textLen at *
        dsimp only at *
        omega }

theorem Rep.setProps {V : MEnv} {own : Int → Owner} {x : Int} {M : MDom} {a : Arena} {d : Dom} (h : Rep V own x M a d) {i : Nat} {r r' : PropRow}
    (hi : d.props[i]? = some r) {off : Int} {e : List UInt8} (h0 : 0 ≤ off) (hel : off + (e.length : Int) ≤ 6)
    (hnew : ∀ p, PropAt a.mem own p i r → PropAt (memWrite (p + off) e a.mem) own p i r') :
    ∃ a', arrPoke 6 i off e M.props a = .ok a' ∧ Rep V own x M a' { d with props := d.props.set i r' } ∧ a'.beg = a.beg := by
  obtain ⟨a', he, hr, hA, hb⟩ := poke_rep (k := ⟨6, 2⟩) propAt_movable h.props h.top (by decide) (by decide) h0 hel hi (fun p hp _ => hnew p hp)
  refine ⟨a', he, ?_, hb⟩
  exact {
      pos := h.pos
      lo := h.lo.trans hA.beg
      above := h.above.trans hA.beg
      top := hA.top
      stop := hA.stop.trans h.stop
      max := h.max
      free := hA.freed h.free
      out := hA.out (by simp) h.out
      oth := hA.oth (by simp) h.oth
      nodes := h.nodes.other nodeAt_movable hA (by simp) (by simp) (by simp)
      fc := h.fc.other rowAt_movable hA (by simp) (by simp) (by simp)
      pc := h.pc.other rowAt_movable hA (by simp) (by simp) (by simp)
      nn := h.nn.other rowAt_movable hA (by simp) (by simp) (by simp)
      boolProps := h.boolProps.other rowAt_movable hA (by simp) (by simp) (by simp)
      props := hr
      tagReg := h.tagReg.other tagAt_movable hA (by simp) (by simp) (by simp)
      boolReg := h.boolReg.other nameAt_movable hA (by simp) (by simp) (by simp)
      keyReg := h.keyReg.other nameAt_movable hA (by simp) (by simp) (by simp)
      valReg := h.valReg.other nameAt_movable hA (by simp) (by simp) (by simp)
      tagMap := h.tagMap.other hA (fun _ => (by simp)) (by simp)
      boolMap := h.boolMap.other hA (fun _ => (by simp)) (by simp)
      keyMap := h.keyMap.other hA (fun _ => (by simp)) (by simp)
      valMap := h.valMap.other hA (fun _ => (by simp)) (by simp)
      few := h.few
      led := by
        have h2 := h.led
        unfold Dom.textLen at *
        dsimp only at *
        omega }

/-- Writing a member of a node, at any offset. -/
theorem Rep.pokeNode {V : MEnv} {own : Int → Owner} {x x' : Int} {M : MDom} {a : Arena} {d : Dom} (h : Rep V own x M a d) {n : Nat} {nd nd' : Node}
    (hn : d.nodes[n]? = some nd) {off : Int} {e : List UInt8} (h0 : 0 ≤ off) (hel : off + (e.length : Int) ≤ 24)
    (hnew : ∀ p, NodeAt a.mem own p n nd → Fixed own own a.mem (memWrite (p + off) e a.mem) →
      NodeAt (memWrite (p + off) e a.mem) own p n nd') (hx : 4 * (nd.textLen : Int) + x ≤ 4 * (nd'.textLen : Int) + x') :
    ∃ a', arrPoke 24 n off e M.nodes a = .ok a' ∧ Rep V own x' M a' (d.setNode n nd') := by
  obtain ⟨a', he, hr, hA, hb⟩ := poke_rep (k := ⟨24, 8⟩) nodeAt_movable h.nodes h.top (by decide) (by decide) h0 hel hn hnew
  refine ⟨a', he, ?_⟩
  exact {
      pos := h.pos
      lo := h.lo.trans hA.beg
      above := h.above.trans hA.beg
      top := hA.top
      stop := hA.stop.trans h.stop
      max := h.max
      free := hA.freed h.free
      out := hA.out (by simp) h.out
      oth := hA.oth (by simp) h.oth
      nodes := hr
      fc := h.fc.other rowAt_movable hA (by simp) (by simp) (by simp)
      pc := h.pc.other rowAt_movable hA (by simp) (by simp) (by simp)
      nn := h.nn.other rowAt_movable hA (by simp) (by simp) (by simp)
      boolProps := h.boolProps.other rowAt_movable hA (by simp) (by simp) (by simp)
      props := h.props.other propAt_movable hA (by simp) (by simp) (by simp)
      tagReg := h.tagReg.other tagAt_movable hA (by simp) (by simp) (by simp)
      boolReg := h.boolReg.other nameAt_movable hA (by simp) (by simp) (by simp)
      keyReg := h.keyReg.other nameAt_movable hA (by simp) (by simp) (by simp)
      valReg := h.valReg.other nameAt_movable hA (by simp) (by simp) (by simp)
      tagMap := h.tagMap.other hA (fun _ => (by simp)) (by simp)
      boolMap := h.boolMap.other hA (fun _ => (by simp)) (by simp)
      keyMap := h.keyMap.other hA (fun _ => (by simp)) (by simp)
      valMap := h.valMap.other hA (fun _ => (by simp)) (by simp)
      few := by
        have := h.few
        have : (d.setNode n nd').nodes.length = d.nodes.length := by simp [Dom.setNode]
        omega
      led := by
        have h1 := setNode_textLen (y := nd') hn
        have h2 := h.led
        omega }

/-! ## Reading the tables -/

theorem bufPtr_entry (s : Arr) (size : Int) (i : Nat) : entryAddr s size i = bufPtr s.buf + size * (i : Int) := rfl

theorem memRows_eq {own : Int → Owner} {o : Owner} {lo : Int} {a : Arena} {s : Arr} {l : List Row} (h : ArrRep own o ⟨4, 2⟩ RowAt lo a s l) :
    memRows s a.mem = l := by
  have := h.list (fun p => (readLE a.mem p 2, readLE a.mem (p + 2) 2)) fun p i r hr => by rw [hr.1, hr.2]
  unfold entries at this
  rw [List.map_map] at this
  exact this

theorem memProps_eq {own : Int → Owner} {o : Owner} {lo : Int} {a : Arena} {s : Arr} {l : List PropRow} (h : ArrRep own o ⟨6, 2⟩ PropAt lo a s l) :
    memProps s a.mem = l := by
  have := h.list (fun p => (⟨readLE a.mem p 2, readLE a.mem (p + 2) 2, readLE a.mem (p + 4) 2⟩ : PropRow)) fun p i r hr => by
    rw [hr.1, hr.2.1, hr.2.2]
  unfold entries at this
  rw [List.map_map] at this
  exact this

/-- The tables of a DOM without its nodes and names. -/
def Dom.rows (d : Dom) : Dom := { Dom.blank with fc := d.fc, pc := d.pc, nn := d.nn, boolProps := d.boolProps, props := d.props }

theorem Rep.tables {V : MEnv} {own : Int → Owner} {x : Int} {M : MDom} {a : Arena} {d : Dom} (h : Rep V own x M a d) :
    memTables M a.mem = d.rows := by
  unfold memTables Dom.rows Dom.blank
  rw [memRows_eq h.fc, memRows_eq h.pc, memRows_eq h.nn, memRows_eq h.boolProps, memProps_eq h.props]

theorem lastNextLoop_rows (d : Dom) : ∀ (f n : Nat), lastNextLoop d.rows f n = lastNextLoop d f n
  | 0, _ => rfl
  | f + 1, n => by
    simp only [lastNextLoop]
    show (match getNextNode n d with | none => _ | some i => _) = _
    cases getNextNode n d with
    | none => rfl
    | some i => exact lastNextLoop_rows d f _

theorem getLastNext_rows (n : Nat) (d : Dom) : getLastNext n d.rows = getLastNext n d := lastNextLoop_rows d _ _

/-! ## Identifiers are 16-bit numbers -/

def Small (l : List Row) : Prop := ∀ i : Nat, (rowAt l i).1 < 65536 ∧ (rowAt l i).2 < 65536

theorem small_of {own : Int → Owner} {o : Owner} {lo : Int} {a : Arena} {s : Arr} {l : List Row} (h : ArrRep own o ⟨4, 2⟩ RowAt lo a s l) : Small l := by
  intro i
  unfold rowAt
  rw [List.getD_eq_getElem?_getD]
  cases hi : l[i]? with
  | none => decide
  | some r =>
    have := h.addr hi
    rw [Option.getD_some, ← this.1, ← this.2]
    exact ⟨readLE_lt _ 2 _, readLE_lt _ 2 _⟩

theorem getNext_small {d : Dom} (h : Small d.nn) (n : Nat) : getNext n d < 65536 := by
  unfold getNext
  split
  · decide
  · exact (h _).2

theorem getFirstChild_small {d : Dom} (h : Small d.fc) (n : Nat) : getFirstChild n d < 65536 := by
  unfold getFirstChild
  split
  · decide
  · exact (h _).2

theorem lastNext_small {d : Dom} (h : Small d.nn) : ∀ (f n : Nat), n < 65536 → Ok (fun m => m < 65536) (lastNextLoop d f n)
  | 0, _, _ => Ok.hang
  | f + 1, n, hn => by
    simp only [lastNextLoop]
    split
    · exact Ok.ok hn
    · exact lastNext_small h f _ (h _).2

theorem getLastNext_small {d : Dom} (h : Small d.nn) {n m : Nat} (hn : n < 65536) (e : getLastNext n d = .ok m) : m < 65536 :=
  lastNext_small h _ n hn m e

theorem findIdx_some {α : Type} {p : α → Bool} {l : List α} {i : Nat} (h : l.findIdx? p = some i) : ∃ r, l[i]? = some r := by
  have := (List.findIdx?_eq_some_iff_getElem.1 h).1
  exact ⟨_, List.getElem?_eq_getElem this⟩

theorem rowAt_of {l : List Row} {i : Nat} {r : Row} (h : l[i]? = some r) : rowAt l i = r := by
  unfold rowAt; rw [List.getD_eq_getElem?_getD, h]; rfl

end Flo
