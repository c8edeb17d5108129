import Verif.Proofs.DomMem
/-!
# The DOM in memory: the representation and what pushing does to it
-/
namespace Flo
open Spec

/-- The memory before: the DOM's memory lies in `[lo, stop)`, the bytes in `keep` are used by others and are as in `mem`, and so are
those in `oth`, to which nothing in the DOM points; the cost of what
happens is counted from `base` on. -/
structure MEnv where
  lo : Int
  stop : Int
  mem : Int → UInt8
  keep : Int → Prop
  oth : Int → Prop
  base : Int
  floor : Int

/-- A string in memory used by others. -/
structure Tok (V : MEnv) (r : MStr) (t : Str) : Prop where
  len : r.len = t.length
  pos : 0 ≤ r.ptr
  top : r.ptr + r.len ≤ 2 ^ 62
  out : ∀ (i : Nat) c, t[i]? = some c → V.keep (r.ptr + (i : Int)) ∧ V.mem (r.ptr + (i : Int)) = c

theorem Tok.fits {V : MEnv} {r : MStr} {t : Str} (h : Tok V r t) : r.ptr < 2 ^ 64 ∧ r.len < 2 ^ 64 := by
  have := h.pos; have := h.top; omega

def Node.textLen (n : Node) : Nat :=
  match n.payload with
  | .text s => s.length
  | .tag _ => 0

/-- The bytes of text in a DOM. -/
def Dom.textLen (d : Dom) : Nat := (d.nodes.map Node.textLen).sum

/-- The bytes allocated for the structure, the arrays and the maps. -/
def MDom.ledger (M : MDom) : Int :=
  312 + (52 * M.nodes.cap - nook M.nodes.cap) + (12 * M.fc.cap - nook M.fc.cap) + (12 * M.pc.cap - nook M.pc.cap) +
    (12 * M.nn.cap - nook M.nn.cap) + (12 * M.boolProps.cap - nook M.boolProps.cap) + (16 * M.props.cap - nook M.props.cap) +
    (52 * M.tagReg.cap - nook M.tagReg.cap) + (36 * M.boolReg.cap - nook M.boolReg.cap) + (36 * M.keyReg.cap - nook M.keyReg.cap) +
    (36 * M.valReg.cap - nook M.valReg.cap) +
    64 * ((M.tagMap.identity : Int) + M.boolMap.identity + M.keyMap.identity + M.valMap.identity)

/-- A bound for the bytes a DOM takes. -/
def Dom.bytes (d : Dom) : Int :=
  312 + 104 * (d.nodes.length : Int) + 24 * (d.fc.length : Int) + 24 * (d.pc.length : Int) + 24 * (d.nn.length : Int) +
    24 * (d.boolProps.length : Int) + 32 * (d.props.length : Int) + 104 * (d.tagReg.length : Int) + 72 * (d.boolReg.length : Int) +
    72 * (d.keyReg.length : Int) + 72 * (d.valReg.length : Int) +
    64 * ((d.tagMap.identity : Int) + d.boolMap.identity + d.keyMap.identity + d.valMap.identity) + 4 * (d.textLen : Int)

structure Rep (V : MEnv) (own : Int → Owner) (x : Int) (M : MDom) (a : Arena) (d : Dom) : Prop where
  pos : 0 < V.lo
  lo : V.lo ≤ a.beg
  above : V.floor ≤ a.beg
  top : a.beg ≤ a.stop
  stop : a.stop = V.stop
  max : V.stop < 2 ^ 62
  free : ∀ y, a.beg ≤ y → y < a.stop → own y = .free
  out : ∀ y, V.keep y → own y = .fixed ∧ a.mem y = V.mem y
  oth : ∀ y, V.oth y → own y = .other ∧ a.mem y = V.mem y
  nodes : ArrRep own (.arr 0) ⟨24, 8⟩ NodeAt V.lo a M.nodes d.nodes
  fc : ArrRep own (.arr 1) ⟨4, 2⟩ RowAt V.lo a M.fc d.fc
  pc : ArrRep own (.arr 2) ⟨4, 2⟩ RowAt V.lo a M.pc d.pc
  nn : ArrRep own (.arr 3) ⟨4, 2⟩ RowAt V.lo a M.nn d.nn
  boolProps : ArrRep own (.arr 4) ⟨4, 2⟩ RowAt V.lo a M.boolProps d.boolProps
  props : ArrRep own (.arr 5) ⟨6, 2⟩ PropAt V.lo a M.props d.props
  tagReg : ArrRep own (.arr 6) ⟨24, 8⟩ TagAt V.lo a M.tagReg d.tagReg
  boolReg : ArrRep own (.arr 7) ⟨16, 8⟩ NameAt V.lo a M.boolReg d.boolReg
  keyReg : ArrRep own (.arr 8) ⟨16, 8⟩ NameAt V.lo a M.keyReg d.keyReg
  valReg : ArrRep own (.arr 9) ⟨16, 8⟩ NameAt V.lo a M.valReg d.valReg
  tagMap : MapRep own 0 a.mem M.tagMap d.tagMap
  boolMap : MapRep own 1 a.mem M.boolMap d.boolMap
  keyMap : MapRep own 2 a.mem M.keyMap d.keyMap
  valMap : MapRep own 3 a.mem M.valMap d.valMap
  few : d.nodes.length ≤ 65535
  led : a.beg ≤ V.base + M.ledger + 4 * (d.textLen : Int) + x

theorem Rep.caps {V : MEnv} {own : Int → Owner} {x : Int} {M : MDom} {a : Arena} {d : Dom} (h : Rep V own x M a d) :
    M.nodes.cap ≤ 2 * (d.nodes.length : Int) ∧ M.fc.cap ≤ 2 * (d.fc.length : Int) ∧ M.pc.cap ≤ 2 * (d.pc.length : Int) ∧ M.nn.cap ≤ 2 * (d.nn.length : Int) ∧ M.boolProps.cap ≤ 2 * (d.boolProps.length : Int) ∧ M.props.cap ≤ 2 * (d.props.length : Int) ∧ M.tagReg.cap ≤ 2 * (d.tagReg.length : Int) ∧ M.boolReg.cap ≤ 2 * (d.boolReg.length : Int) ∧ M.keyReg.cap ≤ 2 * (d.keyReg.length : Int) ∧ M.valReg.cap ≤ 2 * (d.valReg.length : Int) ∧
    M.tagMap.identity = d.tagMap.identity ∧ M.boolMap.identity = d.boolMap.identity ∧ M.keyMap.identity = d.keyMap.identity ∧ M.valMap.identity = d.valMap.identity ∧
    0 ≤ nook M.nodes.cap ∧ 0 ≤ nook M.fc.cap ∧ 0 ≤ nook M.pc.cap ∧ 0 ≤ nook M.nn.cap ∧ 0 ≤ nook M.boolProps.cap ∧ 0 ≤ nook M.props.cap ∧
    0 ≤ nook M.tagReg.cap ∧ 0 ≤ nook M.boolReg.cap ∧ 0 ≤ nook M.keyReg.cap ∧ 0 ≤ nook M.valReg.cap := by
  refine ⟨?_, ?_, ?_, ?_, ?_, ?_, ?_, ?_, ?_, ?_, h.tagMap.ident, h.boolMap.ident, h.keyMap.ident, h.valMap.ident,
    nook_nonneg _, nook_nonneg _, nook_nonneg _, nook_nonneg _, nook_nonneg _, nook_nonneg _, nook_nonneg _, nook_nonneg _, nook_nonneg _, nook_nonneg _⟩
  · have := h.nodes.cap2; have := h.nodes.len; omega
  · have := h.fc.cap2; have := h.fc.len; omega
  · have := h.pc.cap2; have := h.pc.len; omega
  · have := h.nn.cap2; have := h.nn.len; omega
  · have := h.boolProps.cap2; have := h.boolProps.len; omega
  · have := h.props.cap2; have := h.props.len; omega
  · have := h.tagReg.cap2; have := h.tagReg.len; omega
  · have := h.boolReg.cap2; have := h.boolReg.len; omega
  · have := h.keyReg.cap2; have := h.keyReg.len; omega
  · have := h.valReg.cap2; have := h.valReg.len; omega

theorem Rep.bytes {V : MEnv} {own : Int → Owner} {x : Int} {M : MDom} {a : Arena} {d : Dom} (h : Rep V own x M a d) :
    V.base + M.ledger + 4 * (d.textLen : Int) + x ≤ V.base + d.bytes + x := by
  have := h.caps
  unfold MDom.ledger Dom.bytes
  omega

theorem Rep.tok {V : MEnv} {own : Int → Owner} {x : Int} {M : MDom} {a : Arena} {d : Dom} (h : Rep V own x M a d) {r : MStr} {t : Str}
    (ht : Tok V r t) : StrAt a.mem own r.ptr t := by
  intro i c hc
  obtain ⟨h1, h2⟩ := ht.out i c hc
  obtain ⟨h3, h4⟩ := h.out _ h1
  exact ⟨h3, h4.trans h2⟩

theorem Rep.read {V : MEnv} {own : Int → Owner} {x : Int} {M : MDom} {a : Arena} {d : Dom} (h : Rep V own x M a d) {r : MStr} {t : Str}
    (ht : Tok V r t) : r.read a.mem = t := MStr.read_eq ht.len fun i c hc => (h.tok ht i c hc).2

/-- The memory step succeeds with a representation of `d'`, or jumps because the arena has fewer than `L` bytes. -/
def PushRuns (V : MEnv) (x L : Int) (y : Out (MDom × Arena)) (d' : Dom) : Prop :=
  (y = .longjmp ∧ V.stop < V.base + L) ∨ ∃ M a own, y = .ok (M, a) ∧ Rep V own x M a d'

theorem Around.out {V : MEnv} {O : Owner → Prop} {own own' : Int → Owner} {a a' : Arena} (hA : Around O own a own' a') (hf : ¬O .fixed)
    (h : ∀ y, V.keep y → own y = .fixed ∧ a.mem y = V.mem y) :
    ∀ y, V.keep y → own' y = .fixed ∧ a'.mem y = V.mem y := by
  intro y hy
  obtain ⟨h1, h2⟩ := h y hy
  have := hA.stays y (by rw [h1]; decide) (by rw [h1]; exact hf)
  exact ⟨this.1.trans h1, this.2.trans h2⟩

theorem Around.oth {V : MEnv} {O : Owner → Prop} {own own' : Int → Owner} {a a' : Arena} (hA : Around O own a own' a') (hf : ¬O .other)
    (h : ∀ y, V.oth y → own y = .other ∧ a.mem y = V.mem y) :
    ∀ y, V.oth y → own' y = .other ∧ a'.mem y = V.mem y := by
  intro y hy
  obtain ⟨h1, h2⟩ := h y hy
  have := hA.stays y (by rw [h1]; decide) (by rw [h1]; exact hf)
  exact ⟨this.1.trans h1, this.2.trans h2⟩

theorem Around.freed {O : Owner → Prop} {own own' : Int → Owner} {a a' : Arena} (hA : Around O own a own' a')
    (h : ∀ y, a.beg ≤ y → y < a.stop → own y = .free) : ∀ y, a'.beg ≤ y → y < a'.stop → own' y = .free := by
  intro y h1 h2
  have := hA.beg
  rw [hA.stop] at h2
  exact hA.free y h1 h2 (h y (by omega) h2)

theorem kind_24 : Kind.OK ⟨24, 8⟩ := ⟨by decide, isAlign_8, by decide⟩
theorem kind_16 : Kind.OK ⟨16, 8⟩ := ⟨by decide, isAlign_8, by decide⟩

theorem rowAt_enc {r : Row} (h1 : r.1 < 65536) (h2 : r.2 < 65536) (mem : Int → UInt8) (own : Int → Owner) (p : Int) (i : Nat) :
    RowAt (memWrite p (encRow r) mem) own p i r := by
  refine ⟨?_, ?_⟩
  · exact readLE_write (m := mem) (pre := []) (post := leBytes 2 r.2) (n := 2) h1 (by simp)
  · have := readLE_write (m := mem) (p := p) (q := p + 2) (pre := leBytes 2 r.1) (post := []) (n := 2) h2 (by rw [leBytes_length]; rfl)
    rw [List.append_nil] at this
    exact this

theorem propAt_enc {r : PropRow} (h1 : r.node < 65536) (h2 : r.key < 65536) (h3 : r.value < 65536) (mem : Int → UInt8) (own : Int → Owner)
    (p : Int) (i : Nat) : PropAt (memWrite p (encProp r) mem) own p i r := by
  refine ⟨?_, ?_, ?_⟩
  · exact readLE_write (m := mem) (pre := []) (post := leBytes 2 r.key ++ leBytes 2 r.value) (n := 2) h1 (by simp)
  · exact readLE_write (m := mem) (pre := leBytes 2 r.node) (post := leBytes 2 r.value) (n := 2) h2 (by rw [leBytes_length]; rfl)
  · have := readLE_write (m := mem) (p := p) (q := p + 4) (pre := leBytes 2 r.node ++ leBytes 2 r.key) (post := []) (n := 2) h3
      (by rw [List.length_append, leBytes_length, leBytes_length]; rfl)
    rw [List.append_nil, List.append_assoc] at this
    exact this

theorem nameAt_enc {r : MStr} {s : Str} (hl : r.len = s.length) (hp : 0 ≤ r.ptr) (hp' : r.ptr < 2 ^ 64) (hl' : r.len < 2 ^ 64)
    (mem : Int → UInt8) (own : Int → Owner) (p : Int) (i : Nat) (hs : StrAt (memWrite p (encStr r) mem) own r.ptr s) :
    NameAt (memWrite p (encStr r) mem) own p i s := by
  have := strIn_write (mem := mem) (own := own) (p := p) (q := p) (pre := []) (post := []) hp hp' hl hl' (by simp)
    (by rw [List.nil_append, List.append_nil]; exact hs)
  rw [List.nil_append, List.append_nil] at this
  exact this

theorem encStr_length (r : MStr) : (encStr r).length = 16 := by unfold encStr; simp [leBytes_length]

theorem tagAt_enc {r : MStr} {s : Str} {b : Bool} (hl : r.len = s.length) (hp : 0 ≤ r.ptr) (hp' : r.ptr < 2 ^ 64) (hl' : r.len < 2 ^ 64)
    (mem : Int → UInt8) (own : Int → Owner) (p : Int) (i : Nat) (hs : StrAt (memWrite p (encTag r b) mem) own r.ptr s) :
    TagAt (memWrite p (encTag r b) mem) own p i (s, b) := by
  refine ⟨?_, ?_⟩
  · exact strIn_write (mem := mem) (own := own) (p := p) (q := p) (pre := []) (post := leBytes 8 (if b then 1 else 0)) hp hp' hl hl' (by simp) hs
  · have := readLE_write (m := mem) (p := p) (q := p + 16) (pre := encStr r) (post := []) (n := 8) (v := if b then 1 else 0)
      (by split <;> omega) (by rw [encStr_length]; rfl)
    rw [List.append_nil] at this
    exact this

theorem code_lt (t : NodeType) : t.code < 5 := by cases t <;> decide

theorem nodeAt_enc {id n : Nat} {t : NodeType} (hid : id = n) (hn : n < 65536) (mem : Int → UInt8) (own : Int → Owner) (p : Int) :
    NodeAt (memWrite p (encNode id t) mem) own p n (⟨t, if t = .text then .text [] else .tag 0⟩ : Node) := by
  subst hid
  have hz : readLE (memWrite p (encNode id t) mem) (p + 8) 16 = 0 := by
    have := readLE_write (m := mem) (p := p) (q := p + 8) (pre := leBytes 2 id ++ ([0, 0] ++ leBytes 4 t.code)) (post := []) (n := 16) (v := 0)
      (by omega) (by simp [leBytes_length])
    rw [List.append_nil] at this
    simpa [encNode] using this
  have hz' : ∀ i : Int, 0 ≤ i → i < 16 → memWrite p (encNode id t) mem (p + 8 + i) = 0 := by
    intro i h0 h1
    rw [memWrite_in (by omega) (by unfold encNode; simp [leBytes_length]; omega)]
    rw [show (p + 8 + i - p).toNat = 8 + i.toNat by omega]
    unfold encNode
    rw [List.getD_eq_getElem?_getD, List.getElem?_append_right (by rw [leBytes_length]; omega), leBytes_length,
      List.getElem?_append_right (by simp; omega)]
    rw [List.getElem?_append_right (by rw [leBytes_length]; simp; omega), leBytes_length]
    have : ∀ i < 16, (leBytes 16 0)[i]?.getD 0 = 0 := by decide
    have := this i.toNat (by omega)
    rw [show 8 + i.toNat - 2 - [(0 : UInt8), 0].length - 4 = i.toNat by simp; omega]
    exact this
  have r0 : ∀ (n : Nat) (o : Int), 0 ≤ o → o + n ≤ 16 → readLE (memWrite p (encNode id t) mem) (p + 8 + o) n = 0 := by
    intro n o h0 h1
    refine readLE_bytes (by positivity) fun i hi => ?_
    have := hz' (o + i) (by omega) (by omega)
    rw [← Int.add_assoc] at this
    rw [this]
    have hg : ∀ (n i : Nat), (leBytes n 0).getD i 0 = 0 := by
      intro n
      induction n with
      | zero => intro i; rfl
      | succ n ih => intro i; cases i with
        | zero => rfl
        | succ i => simp only [leBytes, List.getD_cons_succ]; exact ih i
    exact (hg n i).symm
  refine ⟨?_, ?_, ?_⟩
  · exact readLE_write (m := mem) (pre := []) (post := [0, 0] ++ (leBytes 4 t.code ++ leBytes 16 0)) (n := 2) hn (by simp)
  · have := readLE_write (m := mem) (p := p) (q := p + 4) (pre := leBytes 2 id ++ [0, 0]) (post := leBytes 16 0) (n := 4) (v := t.code)
      (by have := code_lt t; omega) (by simp [leBytes_length])
    rw [List.append_assoc] at this
    exact this
  · by_cases ht : t = .text
    · rw [if_pos ht]
      dsimp only
      refine ⟨r0 8 8 (by omega) (by omega), fun i c hc => by simp at hc⟩
    · rw [if_neg ht]
      dsimp only
      have := r0 2 0 (by omega) (by omega)
      rw [Int.add_zero] at this
      exact this

theorem Rep.addNodes {V : MEnv} {own : Int → Owner} {x : Int} {M : MDom} {a : Arena} {d : Dom} (h : Rep V own x M a d)
    {id : Nat} {t : NodeType} (hid : id = d.nodes.length) (hroom : d.nodes.length < 65535) :
    PushRuns V x (Dom.bytes { d with nodes := d.nodes ++ [(⟨t, if t = .text then .text [] else .tag 0⟩ : Node)] } + x) (pushNode id t M a) { d with nodes := d.nodes ++ [(⟨t, if t = .text then .text [] else .tag 0⟩ : Node)] } := by
  have hcaps := h.caps
  have hled := h.led
  have hst := h.stop
  have hln := h.nodes.len
  unfold pushNode
  rcases push_rep (k := ⟨24, 8⟩) (e := encNode id t) (x := (⟨t, if t = .text then .text [] else .tag 0⟩ : Node)) nodeAt_movable h.nodes h.lo h.top (by decide) (by decide) (by decide)
    (by unfold encNode; simp [leBytes_length]) h.free (fun mem own' p _ => nodeAt_enc hid (by have := h.few; omega) mem own' p) with
    ⟨hj, hc, hs⟩ | ⟨s', a', own', he, hr, hA, hl⟩
  · left
    rw [hj]
    refine ⟨rfl, ?_⟩
    unfold MDom.ledger at hled
    unfold Dom.bytes Dom.textLen
    unfold Dom.textLen at hled
    simp only [List.length_append, List.length_singleton, List.map_append, List.sum_append, List.map_singleton, List.sum_singleton] at *
    push_cast
    omega
  · right
    rw [he]
    refine ⟨_, _, own', rfl, ?_⟩
    exact {
      pos := h.pos
      lo := h.lo.trans hA.beg
      above := h.above.trans hA.beg
      top := hA.top
      stop := hA.stop.trans h.stop
      max := h.max
      free := hA.freed h.free
      out := hA.out (by simp) h.out
      oth := hA.oth (by simp) h.oth
      fc := h.fc.other rowAt_movable hA (by simp) (by simp) (by simp)
      pc := h.pc.other rowAt_movable hA (by simp) (by simp) (by simp)
      nn := h.nn.other rowAt_movable hA (by simp) (by simp) (by simp)
      boolProps := h.boolProps.other rowAt_movable hA (by simp) (by simp) (by simp)
      props := h.props.other propAt_movable hA (by simp) (by simp) (by simp)
      tagReg := h.tagReg.other tagAt_movable hA (by simp) (by simp) (by simp)
      boolReg := h.boolReg.other nameAt_movable hA (by simp) (by simp) (by simp)
      keyReg := h.keyReg.other nameAt_movable hA (by simp) (by simp) (by simp)
      valReg := h.valReg.other nameAt_movable hA (by simp) (by simp) (by simp)
      nodes := hr
      tagMap := h.tagMap.other hA (fun _ => (by simp)) (by simp)
      boolMap := h.boolMap.other hA (fun _ => (by simp)) (by simp)
      keyMap := h.keyMap.other hA (fun _ => (by simp)) (by simp)
      valMap := h.valMap.other hA (fun _ => (by simp)) (by simp)
      few := by simp; omega
      led := by
        unfold MDom.ledger at *
        unfold Dom.textLen at *
        rw [List.map_append, List.sum_append, List.map_singleton, List.sum_singleton]
        dsimp only at *
        push_cast
        omega }

theorem Rep.addFc {V : MEnv} {own : Int → Owner} {x : Int} {M : MDom} {a : Arena} {d : Dom} (h : Rep V own x M a d)
    {r : Row} (h1 : r.1 < 65536) (h2 : r.2 < 65536) :
    PushRuns V x (Dom.bytes { d with fc := d.fc ++ [r] } + x) (pushFc r M a) { d with fc := d.fc ++ [r] } := by
  have hcaps := h.caps
  have hled := h.led
  have hst := h.stop
  have hln := h.fc.len
  unfold pushFc
  rcases push_rep (k := ⟨4, 2⟩) (e := encRow r) (x := r) rowAt_movable h.fc h.lo h.top (by decide) (by decide) (by decide)
    (by unfold encRow; simp [leBytes_length]) h.free (fun mem own' p _ => rowAt_enc h1 h2 mem own' p _) with
    ⟨hj, hc, hs⟩ | ⟨s', a', own', he, hr, hA, hl⟩
  · left
    rw [hj]
    refine ⟨rfl, ?_⟩
    unfold MDom.ledger at hled
    unfold Dom.bytes Dom.textLen
    unfold Dom.textLen at hled
    simp only [List.length_append, List.length_singleton] at *
    push_cast
    omega
  · right
    rw [he]
    refine ⟨_, _, own', rfl, ?_⟩
    exact {
      pos := h.pos
      lo := h.lo.trans hA.beg
      above := h.above.trans hA.beg
      top := hA.top
      stop := hA.stop.trans h.stop
      max := h.max
      free := hA.freed h.free
      out := hA.out (by simp) h.out
      oth := hA.oth (by simp) h.oth
      nodes := h.nodes.other nodeAt_movable hA (by simp) (by simp) (by simp)
      pc := h.pc.other rowAt_movable hA (by simp) (by simp) (by simp)
      nn := h.nn.other rowAt_movable hA (by simp) (by simp) (by simp)
      boolProps := h.boolProps.other rowAt_movable hA (by simp) (by simp) (by simp)
      props := h.props.other propAt_movable hA (by simp) (by simp) (by simp)
      tagReg := h.tagReg.other tagAt_movable hA (by simp) (by simp) (by simp)
      boolReg := h.boolReg.other nameAt_movable hA (by simp) (by simp) (by simp)
      keyReg := h.keyReg.other nameAt_movable hA (by simp) (by simp) (by simp)
      valReg := h.valReg.other nameAt_movable hA (by simp) (by simp) (by simp)
      fc := hr
      tagMap := h.tagMap.other hA (fun _ => (by simp)) (by simp)
      boolMap := h.boolMap.other hA (fun _ => (by simp)) (by simp)
      keyMap := h.keyMap.other hA (fun _ => (by simp)) (by simp)
      valMap := h.valMap.other hA (fun _ => (by simp)) (by simp)
      few := h.few
      led := by
        unfold MDom.ledger at *
        unfold Dom.textLen at *
        skip
        dsimp only at *
        skip
        omega }

theorem Rep.addPc {V : MEnv} {own : Int → Owner} {x : Int} {M : MDom} {a : Arena} {d : Dom} (h : Rep V own x M a d)
    {r : Row} (h1 : r.1 < 65536) (h2 : r.2 < 65536) :
    PushRuns V x (Dom.bytes { d with pc := d.pc ++ [r] } + x) (pushPc r M a) { d with pc := d.pc ++ [r] } := by
  have hcaps := h.caps
  have hled := h.led
  have hst := h.stop
  have hln := h.pc.len
  unfold pushPc
  rcases push_rep (k := ⟨4, 2⟩) (e := encRow r) (x := r) rowAt_movable h.pc h.lo h.top (by decide) (by decide) (by decide)
    (by unfold encRow; simp [leBytes_length]) h.free (fun mem own' p _ => rowAt_enc h1 h2 mem own' p _) with
    ⟨hj, hc, hs⟩ | ⟨s', a', own', he, hr, hA, hl⟩
  · left
    rw [hj]
    refine ⟨rfl, ?_⟩
    unfold MDom.ledger at hled
    unfold Dom.bytes Dom.textLen
    unfold Dom.textLen at hled
    simp only [List.length_append, List.length_singleton] at *
    push_cast
    omega
  · right
    rw [he]
    refine ⟨_, _, own', rfl, ?_⟩
    exact {
      pos := h.pos
      lo := h.lo.trans hA.beg
      above := h.above.trans hA.beg
      top := hA.top
      stop := hA.stop.trans h.stop
      max := h.max
      free := hA.freed h.free
      out := hA.out (by simp) h.out
      oth := hA.oth (by simp) h.oth
      nodes := h.nodes.other nodeAt_movable hA (by simp) (by simp) (by simp)
      fc := h.fc.other rowAt_movable hA (by simp) (by simp) (by simp)
      nn := h.nn.other rowAt_movable hA (by simp) (by simp) (by simp)
      boolProps := h.boolProps.other rowAt_movable hA (by simp) (by simp) (by simp)
      props := h.props.other propAt_movable hA (by simp) (by simp) (by simp)
      tagReg := h.tagReg.other tagAt_movable hA (by simp) (by simp) (by simp)
      boolReg := h.boolReg.other nameAt_movable hA (by simp) (by simp) (by simp)
      keyReg := h.keyReg.other nameAt_movable hA (by simp) (by simp) (by simp)
      valReg := h.valReg.other nameAt_movable hA (by simp) (by simp) (by simp)
      pc := hr
      tagMap := h.tagMap.other hA (fun _ => (by simp)) (by simp)
      boolMap := h.boolMap.other hA (fun _ => (by simp)) (by simp)
      keyMap := h.keyMap.other hA (fun _ => (by simp)) (by simp)
      valMap := h.valMap.other hA (fun _ => (by simp)) (by simp)
      few := h.few
      led := by
        unfold MDom.ledger at *
        unfold Dom.textLen at *
        skip
        dsimp only at *
        skip
        omega }

theorem Rep.addNn {V : MEnv} {own : Int → Owner} {x : Int} {M : MDom} {a : Arena} {d : Dom} (h : Rep V own x M a d)
    {r : Row} (h1 : r.1 < 65536) (h2 : r.2 < 65536) :
    PushRuns V x (Dom.bytes { d with nn := d.nn ++ [r] } + x) (pushNn r M a) { d with nn := d.nn ++ [r] } := by
  have hcaps := h.caps
  have hled := h.led
  have hst := h.stop
  have hln := h.nn.len
  unfold pushNn
  rcases push_rep (k := ⟨4, 2⟩) (e := encRow r) (x := r) rowAt_movable h.nn h.lo h.top (by decide) (by decide) (by decide)
    (by unfold encRow; simp [leBytes_length]) h.free (fun mem own' p _ => rowAt_enc h1 h2 mem own' p _) with
    ⟨hj, hc, hs⟩ | ⟨s', a', own', he, hr, hA, hl⟩
  · left
    rw [hj]
    refine ⟨rfl, ?_⟩
    unfold MDom.ledger at hled
    unfold Dom.bytes Dom.textLen
    unfold Dom.textLen at hled
    simp only [List.length_append, List.length_singleton] at *
    push_cast
    omega
  · right
    rw [he]
    refine ⟨_, _, own', rfl, ?_⟩
    exact {
      pos := h.pos
      lo := h.lo.trans hA.beg
      above := h.above.trans hA.beg
      top := hA.top
      stop := hA.stop.trans h.stop
      max := h.max
      free := hA.freed h.free
      out := hA.out (by simp) h.out
      oth := hA.oth (by simp) h.oth
      nodes := h.nodes.other nodeAt_movable hA (by simp) (by simp) (by simp)
      fc := h.fc.other rowAt_movable hA (by simp) (by simp) (by simp)
      pc := h.pc.other rowAt_movable hA (by simp) (by simp) (by simp)
      boolProps := h.boolProps.other rowAt_movable hA (by simp) (by simp) (by simp)
      props := h.props.other propAt_movable hA (by simp) (by simp) (by simp)
      tagReg := h.tagReg.other tagAt_movable hA (by simp) (by simp) (by simp)
      boolReg := h.boolReg.other nameAt_movable hA (by simp) (by simp) (by simp)
      keyReg := h.keyReg.other nameAt_movable hA (by simp) (by simp) (by simp)
      valReg := h.valReg.other nameAt_movable hA (by simp) (by simp) (by simp)
      nn := hr
      tagMap := h.tagMap.other hA (fun _ => (by simp)) (by simp)
      boolMap := h.boolMap.other hA (fun _ => (by simp)) (by simp)
      keyMap := h.keyMap.other hA (fun _ => (by simp)) (by simp)
      valMap := h.valMap.other hA (fun _ => (by simp)) (by simp)
      few := h.few
      led := by
        unfold MDom.ledger at *
        unfold Dom.textLen at *
        skip
        dsimp only at *
        skip
        omega }

theorem Rep.addBoolProp {V : MEnv} {own : Int → Owner} {x : Int} {M : MDom} {a : Arena} {d : Dom} (h : Rep V own x M a d)
    {r : Row} (h1 : r.1 < 65536) (h2 : r.2 < 65536) :
    PushRuns V x (Dom.bytes { d with boolProps := d.boolProps ++ [r] } + x) (pushBoolProp r M a) { d with boolProps := d.boolProps ++ [r] } := by
  have hcaps := h.caps
  have hled := h.led
  have hst := h.stop
  have hln := h.boolProps.len
  unfold pushBoolProp
  rcases push_rep (k := ⟨4, 2⟩) (e := encRow r) (x := r) rowAt_movable h.boolProps h.lo h.top (by decide) (by decide) (by decide)
    (by unfold encRow; simp [leBytes_length]) h.free (fun mem own' p _ => rowAt_enc h1 h2 mem own' p _) with
    ⟨hj, hc, hs⟩ | ⟨s', a', own', he, hr, hA, hl⟩
  · left
    rw [hj]
    refine ⟨rfl, ?_⟩
    unfold MDom.ledger at hled
    unfold Dom.bytes Dom.textLen
    unfold Dom.textLen at hled
    simp only [List.length_append, List.length_singleton] at *
    push_cast
    omega
  · right
    rw [he]
    refine ⟨_, _, own', rfl, ?_⟩
    exact {
      pos := h.pos
      lo := h.lo.trans hA.beg
      above := h.above.trans hA.beg
      top := hA.top
      stop := hA.stop.trans h.stop
      max := h.max
      free := hA.freed h.free
      out := hA.out (by simp) h.out
      oth := hA.oth (by simp) h.oth
      nodes := h.nodes.other nodeAt_movable hA (by simp) (by simp) (by simp)
      fc := h.fc.other rowAt_movable hA (by simp) (by simp) (by simp)
      pc := h.pc.other rowAt_movable hA (by simp) (by simp) (by simp)
      nn := h.nn.other rowAt_movable hA (by simp) (by simp) (by simp)
      props := h.props.other propAt_movable hA (by simp) (by simp) (by simp)
      tagReg := h.tagReg.other tagAt_movable hA (by simp) (by simp) (by simp)
      boolReg := h.boolReg.other nameAt_movable hA (by simp) (by simp) (by simp)
      keyReg := h.keyReg.other nameAt_movable hA (by simp) (by simp) (by simp)
      valReg := h.valReg.other nameAt_movable hA (by simp) (by simp) (by simp)
      boolProps := hr
      tagMap := h.tagMap.other hA (fun _ => (by simp)) (by simp)
      boolMap := h.boolMap.other hA (fun _ => (by simp)) (by simp)
      keyMap := h.keyMap.other hA (fun _ => (by simp)) (by simp)
      valMap := h.valMap.other hA (fun _ => (by simp)) (by simp)
      few := h.few
      led := by
        unfold MDom.ledger at *
        unfold Dom.textLen at *
        skip
        dsimp only at *
        skip
        omega }

theorem Rep.addProp {V : MEnv} {own : Int → Owner} {x : Int} {M : MDom} {a : Arena} {d : Dom} (h : Rep V own x M a d)
    {r : PropRow} (h1 : r.node < 65536) (h2 : r.key < 65536) (h3 : r.value < 65536) :
    PushRuns V x (Dom.bytes { d with props := d.props ++ [r] } + x) (pushProp r M a) { d with props := d.props ++ [r] } := by
  have hcaps := h.caps
  have hled := h.led
  have hst := h.stop
  have hln := h.props.len
  unfold pushProp
  rcases push_rep (k := ⟨6, 2⟩) (e := encProp r) (x := r) propAt_movable h.props h.lo h.top (by decide) (by decide) (by decide)
    (by unfold encProp; simp [leBytes_length]) h.free (fun mem own' p _ => propAt_enc h1 h2 h3 mem own' p _) with
    ⟨hj, hc, hs⟩ | ⟨s', a', own', he, hr, hA, hl⟩
  · left
    rw [hj]
    refine ⟨rfl, ?_⟩
    unfold MDom.ledger at hled
    unfold Dom.bytes Dom.textLen
    unfold Dom.textLen at hled
    simp only [List.length_append, List.length_singleton] at *
    push_cast
    omega
  · right
    rw [he]
    refine ⟨_, _, own', rfl, ?_⟩
    exact {
      pos := h.pos
      lo := h.lo.trans hA.beg
      above := h.above.trans hA.beg
      top := hA.top
      stop := hA.stop.trans h.stop
      max := h.max
      free := hA.freed h.free
      out := hA.out (by simp) h.out
      oth := hA.oth (by simp) h.oth
      nodes := h.nodes.other nodeAt_movable hA (by simp) (by simp) (by simp)
      fc := h.fc.other rowAt_movable hA (by simp) (by simp) (by simp)
      pc := h.pc.other rowAt_movable hA (by simp) (by simp) (by simp)
      nn := h.nn.other rowAt_movable hA (by simp) (by simp) (by simp)
      boolProps := h.boolProps.other rowAt_movable hA (by simp) (by simp) (by simp)
      tagReg := h.tagReg.other tagAt_movable hA (by simp) (by simp) (by simp)
      boolReg := h.boolReg.other nameAt_movable hA (by simp) (by simp) (by simp)
      keyReg := h.keyReg.other nameAt_movable hA (by simp) (by simp) (by simp)
      valReg := h.valReg.other nameAt_movable hA (by simp) (by simp) (by simp)
      props := hr
      tagMap := h.tagMap.other hA (fun _ => (by simp)) (by simp)
      boolMap := h.boolMap.other hA (fun _ => (by simp)) (by simp)
      keyMap := h.keyMap.other hA (fun _ => (by simp)) (by simp)
      valMap := h.valMap.other hA (fun _ => (by simp)) (by simp)
      few := h.few
      led := by
        unfold MDom.ledger at *
        unfold Dom.textLen at *
        skip
        dsimp only at *
        skip
        omega }

theorem Rep.addTagReg {V : MEnv} {own : Int → Owner} {x : Int} {M : MDom} {a : Arena} {d : Dom} (h : Rep V own x M a d)
    {s : MStr} {t : Str} {p : Bool} (ht : Tok V s t) :
    PushRuns V x (Dom.bytes { d with tagReg := d.tagReg ++ [(t, p)] } + x) (pushTagReg s p M a) { d with tagReg := d.tagReg ++ [(t, p)] } := by
  have hcaps := h.caps
  have hled := h.led
  have hst := h.stop
  have hln := h.tagReg.len
  unfold pushTagReg
  rcases push_rep (k := ⟨24, 8⟩) (e := encTag s p) (x := (t, p)) tagAt_movable h.tagReg h.lo h.top (by decide) (by decide) (by decide)
    (by unfold encTag; simp [leBytes_length, encStr_length]) h.free (fun mem own' p hf => tagAt_enc ht.len ht.pos (by have := ht.top; omega) (by have := ht.top; have := ht.pos; omega) mem own' p _ ((h.tok ht).keep hf)) with
    ⟨hj, hc, hs⟩ | ⟨s', a', own', he, hr, hA, hl⟩
  · left
    rw [hj]
    refine ⟨rfl, ?_⟩
    unfold MDom.ledger at hled
    unfold Dom.bytes Dom.textLen
    unfold Dom.textLen at hled
    simp only [List.length_append, List.length_singleton] at *
    push_cast
    omega
  · right
    rw [he]
    refine ⟨_, _, own', rfl, ?_⟩
    exact {
      pos := h.pos
      lo := h.lo.trans hA.beg
      above := h.above.trans hA.beg
      top := hA.top
      stop := hA.stop.trans h.stop
      max := h.max
      free := hA.freed h.free
      out := hA.out (by simp) h.out
      oth := hA.oth (by simp) h.oth
      nodes := h.nodes.other nodeAt_movable hA (by simp) (by simp) (by simp)
      fc := h.fc.other rowAt_movable hA (by simp) (by simp) (by simp)
      pc := h.pc.other rowAt_movable hA (by simp) (by simp) (by simp)
      nn := h.nn.other rowAt_movable hA (by simp) (by simp) (by simp)
      boolProps := h.boolProps.other rowAt_movable hA (by simp) (by simp) (by simp)
      props := h.props.other propAt_movable hA (by simp) (by simp) (by simp)
      boolReg := h.boolReg.other nameAt_movable hA (by simp) (by simp) (by simp)
      keyReg := h.keyReg.other nameAt_movable hA (by simp) (by simp) (by simp)
      valReg := h.valReg.other nameAt_movable hA (by simp) (by simp) (by simp)
      tagReg := hr
      tagMap := h.tagMap.other hA (fun _ => (by simp)) (by simp)
      boolMap := h.boolMap.other hA (fun _ => (by simp)) (by simp)
      keyMap := h.keyMap.other hA (fun _ => (by simp)) (by simp)
      valMap := h.valMap.other hA (fun _ => (by simp)) (by simp)
      few := h.few
      led := by
        unfold MDom.ledger at *
        unfold Dom.textLen at *
        skip
        dsimp only at *
        skip
        omega }

theorem Rep.addBoolReg {V : MEnv} {own : Int → Owner} {x : Int} {M : MDom} {a : Arena} {d : Dom} (h : Rep V own x M a d)
    {s : MStr} {t : Str} (ht : Tok V s t) :
    PushRuns V x (Dom.bytes { d with boolReg := d.boolReg ++ [t] } + x) (pushBoolReg s M a) { d with boolReg := d.boolReg ++ [t] } := by
  have hcaps := h.caps
  have hled := h.led
  have hst := h.stop
  have hln := h.boolReg.len
  unfold pushBoolReg
  rcases push_rep (k := ⟨16, 8⟩) (e := encStr s) (x := t) nameAt_movable h.boolReg h.lo h.top (by decide) (by decide) (by decide)
    (by simp [encStr_length]) h.free (fun mem own' p hf => nameAt_enc ht.len ht.pos (by have := ht.top; omega) (by have := ht.top; have := ht.pos; omega) mem own' p _ ((h.tok ht).keep hf)) with
    ⟨hj, hc, hs⟩ | ⟨s', a', own', he, hr, hA, hl⟩
  · left
    rw [hj]
    refine ⟨rfl, ?_⟩
    unfold MDom.ledger at hled
    unfold Dom.bytes Dom.textLen
    unfold Dom.textLen at hled
    simp only [List.length_append, List.length_singleton] at *
    push_cast
    omega
  · right
    rw [he]
    refine ⟨_, _, own', rfl, ?_⟩
    exact {
      pos := h.pos
      lo := h.lo.trans hA.beg
      above := h.above.trans hA.beg
      top := hA.top
      stop := hA.stop.trans h.stop
      max := h.max
      free := hA.freed h.free
      out := hA.out (by simp) h.out
      oth := hA.oth (by simp) h.oth
      nodes := h.nodes.other nodeAt_movable hA (by simp) (by simp) (by simp)
      fc := h.fc.other rowAt_movable hA (by simp) (by simp) (by simp)
      pc := h.pc.other rowAt_movable hA (by simp) (by simp) (by simp)
      nn := h.nn.other rowAt_movable hA (by simp) (by simp) (by simp)
      boolProps := h.boolProps.other rowAt_movable hA (by simp) (by simp) (by simp)
      props := h.props.other propAt_movable hA (by simp) (by simp) (by simp)
      tagReg := h.tagReg.other tagAt_movable hA (by simp) (by simp) (by simp)
      keyReg := h.keyReg.other nameAt_movable hA (by simp) (by simp) (by simp)
      valReg := h.valReg.other nameAt_movable hA (by simp) (by simp) (by simp)
      boolReg := hr
      tagMap := h.tagMap.other hA (fun _ => (by simp)) (by simp)
      boolMap := h.boolMap.other hA (fun _ => (by simp)) (by simp)
      keyMap := h.keyMap.other hA (fun _ => (by simp)) (by simp)
      valMap := h.valMap.other hA (fun _ => (by simp)) (by simp)
      few := h.few
      led := by
        unfold MDom.ledger at *
        unfold Dom.textLen at *
        skip
        dsimp only at *
        skip
        omega }

theorem Rep.addKeyReg {V : MEnv} {own : Int → Owner} {x : Int} {M : MDom} {a : Arena} {d : Dom} (h : Rep V own x M a d)
    {s : MStr} {t : Str} (ht : Tok V s t) :
    PushRuns V x (Dom.bytes { d with keyReg := d.keyReg ++ [t] } + x) (pushKeyReg s M a) { d with keyReg := d.keyReg ++ [t] } := by
  have hcaps := h.caps
  have hled := h.led
  have hst := h.stop
  have hln := h.keyReg.len
  unfold pushKeyReg
  rcases push_rep (k := ⟨16, 8⟩) (e := encStr s) (x := t) nameAt_movable h.keyReg h.lo h.top (by decide) (by decide) (by decide)
    (by simp [encStr_length]) h.free (fun mem own' p hf => nameAt_enc ht.len ht.pos (by have := ht.top; omega) (by have := ht.top; have := ht.pos; omega) mem own' p _ ((h.tok ht).keep hf)) with
    ⟨hj, hc, hs⟩ | ⟨s', a', own', he, hr, hA, hl⟩
  · left
    rw [hj]
    refine ⟨rfl, ?_⟩
    unfold MDom.ledger at hled
    unfold Dom.bytes Dom.textLen
    unfold Dom.textLen at hled
    simp only [List.length_append, List.length_singleton] at *
    push_cast
    omega
  · right
    rw [he]
    refine ⟨_, _, own', rfl, ?_⟩
    exact {
      pos := h.pos
      lo := h.lo.trans hA.beg
      above := h.above.trans hA.beg
      top := hA.top
      stop := hA.stop.trans h.stop
      max := h.max
      free := hA.freed h.free
      out := hA.out (by simp) h.out
      oth := hA.oth (by simp) h.oth
      nodes := h.nodes.other nodeAt_movable hA (by simp) (by simp) (by simp)
      fc := h.fc.other rowAt_movable hA (by simp) (by simp) (by simp)
      pc := h.pc.other rowAt_movable hA (by simp) (by simp) (by simp)
      nn := h.nn.other rowAt_movable hA (by simp) (by simp) (by simp)
      boolProps := h.boolProps.other rowAt_movable hA (by simp) (by simp) (by simp)
      props := h.props.other propAt_movable hA (by simp) (by simp) (by simp)
      tagReg := h.tagReg.other tagAt_movable hA (by simp) (by simp) (by simp)
      boolReg := h.boolReg.other nameAt_movable hA (by simp) (by simp) (by simp)
      valReg := h.valReg.other nameAt_movable hA (by simp) (by simp) (by simp)
      keyReg := hr
      tagMap := h.tagMap.other hA (fun _ => (by simp)) (by simp)
      boolMap := h.boolMap.other hA (fun _ => (by simp)) (by simp)
      keyMap := h.keyMap.other hA (fun _ => (by simp)) (by simp)
      valMap := h.valMap.other hA (fun _ => (by simp)) (by simp)
      few := h.few
      led := by
        unfold MDom.ledger at *
        unfold Dom.textLen at *
        skip
        dsimp only at *
        skip
        omega }

theorem Rep.addValReg {V : MEnv} {own : Int → Owner} {x : Int} {M : MDom} {a : Arena} {d : Dom} (h : Rep V own x M a d)
    {s : MStr} {t : Str} (ht : Tok V s t) :
    PushRuns V x (Dom.bytes { d with valReg := d.valReg ++ [t] } + x) (pushValReg s M a) { d with valReg := d.valReg ++ [t] } := by
  have hcaps := h.caps
  have hled := h.led
  have hst := h.stop
  have hln := h.valReg.len
  unfold pushValReg
  rcases push_rep (k := ⟨16, 8⟩) (e := encStr s) (x := t) nameAt_movable h.valReg h.lo h.top (by decide) (by decide) (by decide)
    (by simp [encStr_length]) h.free (fun mem own' p hf => nameAt_enc ht.len ht.pos (by have := ht.top; omega) (by have := ht.top; have := ht.pos; omega) mem own' p _ ((h.tok ht).keep hf)) with
    ⟨hj, hc, hs⟩ | ⟨s', a', own', he, hr, hA, hl⟩
  · left
    rw [hj]
    refine ⟨rfl, ?_⟩
    unfold MDom.ledger at hled
    unfold Dom.bytes Dom.textLen
    unfold Dom.textLen at hled
    simp only [List.length_append, List.length_singleton] at *
    push_cast
    omega
  · right
    rw [he]
    refine ⟨_, _, own', rfl, ?_⟩
    exact {
      pos := h.pos
      lo := h.lo.trans hA.beg
      above := h.above.trans hA.beg
      top := hA.top
      stop := hA.stop.trans h.stop
      max := h.max
      free := hA.freed h.free
      out := hA.out (by simp) h.out
      oth := hA.oth (by simp) h.oth
      nodes := h.nodes.other nodeAt_movable hA (by simp) (by simp) (by simp)
      fc := h.fc.other rowAt_movable hA (by simp) (by simp) (by simp)
      pc := h.pc.other rowAt_movable hA (by simp) (by simp) (by simp)
      nn := h.nn.other rowAt_movable hA (by simp) (by simp) (by simp)
      boolProps := h.boolProps.other rowAt_movable hA (by simp) (by simp) (by simp)
      props := h.props.other propAt_movable hA (by simp) (by simp) (by simp)
      tagReg := h.tagReg.other tagAt_movable hA (by simp) (by simp) (by simp)
      boolReg := h.boolReg.other nameAt_movable hA (by simp) (by simp) (by simp)
      keyReg := h.keyReg.other nameAt_movable hA (by simp) (by simp) (by simp)
      valReg := hr
      tagMap := h.tagMap.other hA (fun _ => (by simp)) (by simp)
      boolMap := h.boolMap.other hA (fun _ => (by simp)) (by simp)
      keyMap := h.keyMap.other hA (fun _ => (by simp)) (by simp)
      valMap := h.valMap.other hA (fun _ => (by simp)) (by simp)
      few := h.few
      led := by
        unfold MDom.ledger at *
        unfold Dom.textLen at *
        skip
        dsimp only at *
        skip
        omega }

end Flo
