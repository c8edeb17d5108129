import Verif.Proofs.DupMem
/-!
# Duplicating a DOM in memory: all of it
-/
namespace Flo
open Spec

set_option linter.unusedSimpArgs false

/-! ## An arena driven beyond its end -/

/-- The step jumps, or leaves an arena beyond its end. -/
def Doomed (y : Out (MDom × Arena)) : Prop := y = .longjmp ∨ ∃ M a, y = .ok (M, a) ∧ a.stop < a.beg

theorem Doomed.then {y : Out (MDom × Arena)} {g : MDom × Arena → Out (MDom × Arena)} (h : Doomed y)
    (hg : ∀ M a, a.stop < a.beg → g (M, a) = .longjmp) : (y >>= g) = .longjmp := by
  rcases h with h | ⟨M, a, h, hd⟩
  · rw [h]; rfl
  · rw [h, Out.bind_ok]; exact hg M a hd

theorem arrCopy_doomed {size align : Int} {s : Arr} {a : Arena} (hz : 0 < size) (hal : IsAlign align) (hl : 0 ≤ s.len) (hd : a.stop < a.beg) :
    (arrCopy size align s a = .longjmp ∨ ∃ s' a', arrCopy size align s a = .ok (s', a') ∧ a'.stop < a'.beg) ∧
    (0 < s.len → arrCopy size align s a = .longjmp) := by
  unfold arrCopy
  rcases arenaAlloc_cases (size := size) (align := align) (count := s.len) (zero := false) (nof := false) (a := a) hz hal hl with
    ⟨p, a', he, hA⟩ | ⟨hlt, he⟩
  · have h1 := hA.above
    have h3 := hA.beg
    have h4 := hA.stop
    have hm : 0 ≤ size * s.len := by positivity
    rw [he]
    simp only [Out.bind_ok]
    refine ⟨Or.inr ?_, fun hpos => ?_⟩
    · cases s.buf with
      | none => exact ⟨_, _, rfl, by omega⟩
      | some b => exact ⟨_, _, rfl, by dsimp only; omega⟩
    · have := hA.fits hpos
      omega
  · rw [he, if_neg (by decide)]
    exact ⟨Or.inl rfl, fun _ => rfl⟩

theorem doomed_of {size align : Int} {s : Arr} {a : Arena} {f : Arr → MDom} (hz : 0 < size) (hal : IsAlign align) (hl : 0 ≤ s.len) (hd : a.stop < a.beg) :
    Doomed (arrCopy size align s a >>= fun q => .ok (f q.1, q.2)) := by
  rcases (arrCopy_doomed hz hal hl hd).1 with h | ⟨s', a', h, h'⟩
  · rw [h]; exact Or.inl rfl
  · rw [h]; exact Or.inr ⟨_, _, rfl, h'⟩

/-- The lengths of a structure. -/
structure MDom.Lens (M : MDom) : Prop where
  fc : 0 ≤ M.fc.len
  pc : 0 ≤ M.pc.len
  nn : 0 ≤ M.nn.len
  boolProps : 0 ≤ M.boolProps.len
  props : 0 ≤ M.props.len
  tagReg : 0 ≤ M.tagReg.len
  boolReg : 0 ≤ M.boolReg.len
  keyReg : 0 ≤ M.keyReg.len
  valReg : 0 < M.valReg.len

section
variable {src M : MDom} {a : Arena} (h : src.Lens) (hd : a.stop < a.beg)
include h hd

theorem doom10 : copyValReg src M a = .longjmp := by
  unfold copyValReg
  rw [(arrCopy_doomed (by decide) isAlign_8 (le_of_lt h.valReg) hd).2 h.valReg]; rfl

theorem doom9 : (copyKeyReg src M a >>= fun q => copyValReg src q.1 q.2) = .longjmp :=
  Doomed.then (doomed_of (f := fun s => { M with keyReg := s }) (by decide) isAlign_8 h.keyReg hd) fun _ _ hd => doom10 h hd

theorem doom8 : (copyBoolReg src M a >>= fun q => copyKeyReg src q.1 q.2 >>= fun q => copyValReg src q.1 q.2) = .longjmp :=
  Doomed.then (doomed_of (f := fun s => { M with boolReg := s }) (by decide) isAlign_8 h.boolReg hd) fun _ _ hd => doom9 h hd

theorem doom7 : (copyTagReg src M a >>= fun q => copyBoolReg src q.1 q.2 >>= fun q => copyKeyReg src q.1 q.2 >>= fun q => copyValReg src q.1 q.2) = .longjmp :=
  Doomed.then (doomed_of (f := fun s => { M with tagReg := s }) (by decide) isAlign_8 h.tagReg hd) fun _ _ hd => doom8 h hd

theorem doom6 : (copyProps src M a >>= fun q => copyTagReg src q.1 q.2 >>= fun q => copyBoolReg src q.1 q.2 >>= fun q => copyKeyReg src q.1 q.2 >>=
    fun q => copyValReg src q.1 q.2) = .longjmp :=
  Doomed.then (doomed_of (f := fun s => { M with props := s }) (by decide) isAlign_2 h.props hd) fun _ _ hd => doom7 h hd

theorem doom5 : (copyBoolProps src M a >>= fun q => copyProps src q.1 q.2 >>= fun q => copyTagReg src q.1 q.2 >>= fun q => copyBoolReg src q.1 q.2 >>=
    fun q => copyKeyReg src q.1 q.2 >>= fun q => copyValReg src q.1 q.2) = .longjmp :=
  Doomed.then (doomed_of (f := fun s => { M with boolProps := s }) (by decide) isAlign_2 h.boolProps hd) fun _ _ hd => doom6 h hd

theorem doom4 : (copyNn src M a >>= fun q => copyBoolProps src q.1 q.2 >>= fun q => copyProps src q.1 q.2 >>= fun q => copyTagReg src q.1 q.2 >>=
    fun q => copyBoolReg src q.1 q.2 >>= fun q => copyKeyReg src q.1 q.2 >>= fun q => copyValReg src q.1 q.2) = .longjmp :=
  Doomed.then (doomed_of (f := fun s => { M with nn := s }) (by decide) isAlign_2 h.nn hd) fun _ _ hd => doom5 h hd

theorem doom3 : (copyPc src M a >>= fun q => copyNn src q.1 q.2 >>= fun q => copyBoolProps src q.1 q.2 >>= fun q => copyProps src q.1 q.2 >>=
    fun q => copyTagReg src q.1 q.2 >>= fun q => copyBoolReg src q.1 q.2 >>= fun q => copyKeyReg src q.1 q.2 >>= fun q => copyValReg src q.1 q.2) = .longjmp :=
  Doomed.then (doomed_of (f := fun s => { M with pc := s }) (by decide) isAlign_2 h.pc hd) fun _ _ hd => doom4 h hd

theorem doom2 : (copyFc src M a >>= fun q => copyPc src q.1 q.2 >>= fun q => copyNn src q.1 q.2 >>= fun q => copyBoolProps src q.1 q.2 >>=
    fun q => copyProps src q.1 q.2 >>= fun q => copyTagReg src q.1 q.2 >>= fun q => copyBoolReg src q.1 q.2 >>= fun q => copyKeyReg src q.1 q.2 >>=
    fun q => copyValReg src q.1 q.2) = .longjmp :=
  Doomed.then (doomed_of (f := fun s => { M with fc := s }) (by decide) isAlign_2 h.fc hd) fun _ _ hd => doom3 h hd

end

/-! ## The tables -/

/-- What copying all tables does. -/
def CopyEnds (V : MEnv) (x : Int) (y : Out (MDom × Arena)) (d' : Dom) : Prop :=
  (y = .longjmp ∧ V.stop < V.base + (d'.bytes + x)) ∨ ∃ M a own, y = .ok (M, a) ∧ Rep V own x M.norm a d'

theorem CopyRuns.then {V : MEnv} {x x' : Int} {y : Out (MDom × Arena)} {g : MDom × Arena → Out (MDom × Arena)} {d1 d2 : Dom}
    (h : CopyRuns V x y d1) (hb : d1.bytes + x ≤ d2.bytes + x') (hdoom : ∀ M a, a.stop < a.beg → g (M, a) = .longjmp)
    (hg : ∀ M a own, y = .ok (M, a) → Rep V own x M.norm a d1 → CopyEnds V x' (g (M, a)) d2) : CopyEnds V x' (y >>= g) d2 := by
  rcases h with ⟨h1, h2⟩ | ⟨M, a, h1, h2, h3⟩ | ⟨M, a, own, h1, h2⟩
  · left; rw [h1]; exact ⟨rfl, by omega⟩
  · left; rw [h1, Out.bind_ok, hdoom M a h2]; exact ⟨rfl, by omega⟩
  · rw [h1, Out.bind_ok]; exact hg M a own h1 h2

/-- Copying a table with entries does not leave the arena beyond its end. -/
theorem copyValReg_fits {src M M' : MDom} {a a' : Arena} (h : src.Lens) (e : copyValReg src M a = .ok (M', a')) : a'.beg ≤ a'.stop := by
  have hl := h.valReg
  unfold copyValReg arrCopy at e
  rcases arenaAlloc_cases (size := 16) (align := 8) (count := src.valReg.len) (zero := false) (nof := false) (a := a) (by omega) isAlign_8 (by omega) with
    ⟨p, a1, he, hA⟩ | ⟨hlt, he⟩
  · have h3 := hA.beg
    have h4 := hA.stop
    have h5 := hA.fits hl
    rw [he] at e
    simp only [Out.bind_ok] at e
    cases hb : src.valReg.buf with
    | none =>
      rw [hb] at e
      cases e
      show a1.beg ≤ a1.stop
      omega
    | some b =>
      rw [hb] at e
      cases e
      show a1.beg ≤ a1.stop
      omega
  · rw [he, if_neg (by decide)] at e
    cases e

theorem copied {size align : Int} {s : Arr} {a : Arena} {f : Arr → MDom} {M' : MDom} {a' : Arena}
    (h : (arrCopy size align s a >>= fun q => .ok (f q.1, q.2)) = .ok (M', a')) : ∃ s', M' = f s' := by
  cases hc : arrCopy size align s a with
  | ok q => rw [hc] at h; cases h; exact ⟨_, rfl⟩
  | longjmp => rw [hc] at h; cases h
  | hang => rw [hc] at h; cases h
  | ub w => rw [hc] at h; cases h

/-- The sources of all tables. -/
structure Sources (V : MEnv) (src : MDom) (d : Dom) : Prop where
  nodes : Source V ⟨24, 8⟩ NodeAt src.nodes d.nodes
  fc : Source V ⟨4, 2⟩ RowAt src.fc d.fc
  pc : Source V ⟨4, 2⟩ RowAt src.pc d.pc
  nn : Source V ⟨4, 2⟩ RowAt src.nn d.nn
  boolProps : Source V ⟨4, 2⟩ RowAt src.boolProps d.boolProps
  props : Source V ⟨6, 2⟩ PropAt src.props d.props
  tagReg : Source V ⟨24, 8⟩ TagAt src.tagReg d.tagReg
  boolReg : Source V ⟨16, 8⟩ NameAt src.boolReg d.boolReg
  keyReg : Source V ⟨16, 8⟩ NameAt src.keyReg d.keyReg
  valReg : Source V ⟨16, 8⟩ NameAt src.valReg d.valReg
  few : d.nodes.length ≤ 65535
  val : d.valReg ≠ []

theorem Sources.lens {V : MEnv} {src : MDom} {d : Dom} (h : Sources V src d) : src.Lens := by
  refine ⟨?_, ?_, ?_, ?_, ?_, ?_, ?_, ?_, ?_⟩
  · rw [h.fc.len]; omega
  · rw [h.pc.len]; omega
  · rw [h.nn.len]; omega
  · rw [h.boolProps.len]; omega
  · rw [h.props.len]; omega
  · rw [h.tagReg.len]; omega
  · rw [h.boolReg.len]; omega
  · rw [h.keyReg.len]; omega
  · rw [h.valReg.len]; have := List.length_pos_iff.2 h.val; omega

/-- The DOM without its maps. -/
def Dom.tables (d : Dom) : Dom := { d with tagMap := .empty, boolMap := .empty, keyMap := .empty, valMap := .empty }

def d1 (d : Dom) : Dom := { Dom.blank with nodes := d.nodes }
def d2 (d : Dom) : Dom := { d1 d with fc := d.fc }
def d3 (d : Dom) : Dom := { d2 d with pc := d.pc }
def d4 (d : Dom) : Dom := { d3 d with nn := d.nn }
def d5 (d : Dom) : Dom := { d4 d with boolProps := d.boolProps }
def d6 (d : Dom) : Dom := { d5 d with props := d.props }
def d7 (d : Dom) : Dom := { d6 d with tagReg := d.tagReg }
def d8 (d : Dom) : Dom := { d7 d with boolReg := d.boolReg }
def d9 (d : Dom) : Dom := { d8 d with keyReg := d.keyReg }
def d10 (d : Dom) : Dom := { d9 d with valReg := d.valReg }

theorem d10_eq (d : Dom) : d10 d = d.tables := by
  simp only [d1, d2, d3, d4, d5, d6, d7, d8, d9, d10, Dom.tables, Dom.blank]

theorem Dom.blank_tables : Dom.blank.nodes = [] ∧ Dom.blank.fc = [] := ⟨rfl, rfl⟩

theorem copyNodes_ok {src M M' : MDom} {a a' : Arena} (h : copyNodes src M a = .ok (M', a')) : ∃ s, M' = { M with nodes := s } :=
  copied (f := fun s => { M with nodes := s }) h

theorem copyFc_ok {src M M' : MDom} {a a' : Arena} (h : copyFc src M a = .ok (M', a')) : ∃ s, M' = { M with fc := s } :=
  copied (f := fun s => { M with fc := s }) h

theorem copyPc_ok {src M M' : MDom} {a a' : Arena} (h : copyPc src M a = .ok (M', a')) : ∃ s, M' = { M with pc := s } :=
  copied (f := fun s => { M with pc := s }) h

theorem copyNn_ok {src M M' : MDom} {a a' : Arena} (h : copyNn src M a = .ok (M', a')) : ∃ s, M' = { M with nn := s } :=
  copied (f := fun s => { M with nn := s }) h

theorem copyBoolProps_ok {src M M' : MDom} {a a' : Arena} (h : copyBoolProps src M a = .ok (M', a')) : ∃ s, M' = { M with boolProps := s } :=
  copied (f := fun s => { M with boolProps := s }) h

theorem copyProps_ok {src M M' : MDom} {a a' : Arena} (h : copyProps src M a = .ok (M', a')) : ∃ s, M' = { M with props := s } :=
  copied (f := fun s => { M with props := s }) h

theorem copyTagReg_ok {src M M' : MDom} {a a' : Arena} (h : copyTagReg src M a = .ok (M', a')) : ∃ s, M' = { M with tagReg := s } :=
  copied (f := fun s => { M with tagReg := s }) h

theorem copyBoolReg_ok {src M M' : MDom} {a a' : Arena} (h : copyBoolReg src M a = .ok (M', a')) : ∃ s, M' = { M with boolReg := s } :=
  copied (f := fun s => { M with boolReg := s }) h

theorem copyKeyReg_ok {src M M' : MDom} {a a' : Arena} (h : copyKeyReg src M a = .ok (M', a')) : ∃ s, M' = { M with keyReg := s } :=
  copied (f := fun s => { M with keyReg := s }) h

theorem copyValReg_ok {src M M' : MDom} {a a' : Arena} (h : copyValReg src M a = .ok (M', a')) : ∃ s, M' = { M with valReg := s } :=
  copied (f := fun s => { M with valReg := s }) h

/-- The tables from number 1 on are not there yet. -/
def Bare1 (M : MDom) : Prop := M.fc = .empty ∧ M.pc = .empty ∧ M.nn = .empty ∧ M.boolProps = .empty ∧ M.props = .empty ∧ M.tagReg = .empty ∧ M.boolReg = .empty ∧ M.keyReg = .empty ∧ M.valReg = .empty

/-- The tables from number 2 on are not there yet. -/
def Bare2 (M : MDom) : Prop := M.pc = .empty ∧ M.nn = .empty ∧ M.boolProps = .empty ∧ M.props = .empty ∧ M.tagReg = .empty ∧ M.boolReg = .empty ∧ M.keyReg = .empty ∧ M.valReg = .empty

/-- The tables from number 3 on are not there yet. -/
def Bare3 (M : MDom) : Prop := M.nn = .empty ∧ M.boolProps = .empty ∧ M.props = .empty ∧ M.tagReg = .empty ∧ M.boolReg = .empty ∧ M.keyReg = .empty ∧ M.valReg = .empty

/-- The tables from number 4 on are not there yet. -/
def Bare4 (M : MDom) : Prop := M.boolProps = .empty ∧ M.props = .empty ∧ M.tagReg = .empty ∧ M.boolReg = .empty ∧ M.keyReg = .empty ∧ M.valReg = .empty

/-- The tables from number 5 on are not there yet. -/
def Bare5 (M : MDom) : Prop := M.props = .empty ∧ M.tagReg = .empty ∧ M.boolReg = .empty ∧ M.keyReg = .empty ∧ M.valReg = .empty

/-- The tables from number 6 on are not there yet. -/
def Bare6 (M : MDom) : Prop := M.tagReg = .empty ∧ M.boolReg = .empty ∧ M.keyReg = .empty ∧ M.valReg = .empty

/-- The tables from number 7 on are not there yet. -/
def Bare7 (M : MDom) : Prop := M.boolReg = .empty ∧ M.keyReg = .empty ∧ M.valReg = .empty

/-- The tables from number 8 on are not there yet. -/
def Bare8 (M : MDom) : Prop := M.keyReg = .empty ∧ M.valReg = .empty

/-- The tables from number 9 on are not there yet. -/
def Bare9 (M : MDom) : Prop := M.valReg = .empty

theorem bare1 {src M M' : MDom} {a a' : Arena} (h : M = .zero) (e : copyNodes src M a = .ok (M', a')) : Bare1 M' := by
  obtain ⟨s, rfl⟩ := copyNodes_ok e
  subst h
  exact ⟨rfl, rfl, rfl, rfl, rfl, rfl, rfl, rfl, rfl⟩

theorem bare2 {src M M' : MDom} {a a' : Arena} (h : Bare1 M) (e : copyFc src M a = .ok (M', a')) : Bare2 M' := by
  obtain ⟨s, rfl⟩ := copyFc_ok e
  exact h.2

theorem bare3 {src M M' : MDom} {a a' : Arena} (h : Bare2 M) (e : copyPc src M a = .ok (M', a')) : Bare3 M' := by
  obtain ⟨s, rfl⟩ := copyPc_ok e
  exact h.2

theorem bare4 {src M M' : MDom} {a a' : Arena} (h : Bare3 M) (e : copyNn src M a = .ok (M', a')) : Bare4 M' := by
  obtain ⟨s, rfl⟩ := copyNn_ok e
  exact h.2

theorem bare5 {src M M' : MDom} {a a' : Arena} (h : Bare4 M) (e : copyBoolProps src M a = .ok (M', a')) : Bare5 M' := by
  obtain ⟨s, rfl⟩ := copyBoolProps_ok e
  exact h.2

theorem bare6 {src M M' : MDom} {a a' : Arena} (h : Bare5 M) (e : copyProps src M a = .ok (M', a')) : Bare6 M' := by
  obtain ⟨s, rfl⟩ := copyProps_ok e
  exact h.2

theorem bare7 {src M M' : MDom} {a a' : Arena} (h : Bare6 M) (e : copyTagReg src M a = .ok (M', a')) : Bare7 M' := by
  obtain ⟨s, rfl⟩ := copyTagReg_ok e
  exact h.2

theorem bare8 {src M M' : MDom} {a a' : Arena} (h : Bare7 M) (e : copyBoolReg src M a = .ok (M', a')) : Bare8 M' := by
  obtain ⟨s, rfl⟩ := copyBoolReg_ok e
  exact h.2

theorem bare9 {src M M' : MDom} {a a' : Arena} (h : Bare8 M) (e : copyKeyReg src M a = .ok (M', a')) : Bare9 M' := by
  obtain ⟨s, rfl⟩ := copyKeyReg_ok e
  exact h.2

theorem d1_grow (d : Dom) (x : Int) : (d1 d).bytes + x ≤ (d2 d).bytes + (x + 8) := by
  unfold Dom.bytes Dom.textLen
  simp only [d1, d2, d3, d4, d5, d6, d7, d8, d9, d10, Dom.blank, List.length_nil]
  push_cast
  omega

theorem d2_grow (d : Dom) (x : Int) : (d2 d).bytes + x ≤ (d3 d).bytes + (x + 8) := by
  unfold Dom.bytes Dom.textLen
  simp only [d1, d2, d3, d4, d5, d6, d7, d8, d9, d10, Dom.blank, List.length_nil]
  push_cast
  omega

theorem d3_grow (d : Dom) (x : Int) : (d3 d).bytes + x ≤ (d4 d).bytes + (x + 8) := by
  unfold Dom.bytes Dom.textLen
  simp only [d1, d2, d3, d4, d5, d6, d7, d8, d9, d10, Dom.blank, List.length_nil]
  push_cast
  omega

theorem d4_grow (d : Dom) (x : Int) : (d4 d).bytes + x ≤ (d5 d).bytes + (x + 8) := by
  unfold Dom.bytes Dom.textLen
  simp only [d1, d2, d3, d4, d5, d6, d7, d8, d9, d10, Dom.blank, List.length_nil]
  push_cast
  omega

theorem d5_grow (d : Dom) (x : Int) : (d5 d).bytes + x ≤ (d6 d).bytes + (x + 8) := by
  unfold Dom.bytes Dom.textLen
  simp only [d1, d2, d3, d4, d5, d6, d7, d8, d9, d10, Dom.blank, List.length_nil]
  push_cast
  omega

theorem d6_grow (d : Dom) (x : Int) : (d6 d).bytes + x ≤ (d7 d).bytes + (x + 8) := by
  unfold Dom.bytes Dom.textLen
  simp only [d1, d2, d3, d4, d5, d6, d7, d8, d9, d10, Dom.blank, List.length_nil]
  push_cast
  omega

theorem d7_grow (d : Dom) (x : Int) : (d7 d).bytes + x ≤ (d8 d).bytes + (x + 8) := by
  unfold Dom.bytes Dom.textLen
  simp only [d1, d2, d3, d4, d5, d6, d7, d8, d9, d10, Dom.blank, List.length_nil]
  push_cast
  omega

theorem d8_grow (d : Dom) (x : Int) : (d8 d).bytes + x ≤ (d9 d).bytes + (x + 8) := by
  unfold Dom.bytes Dom.textLen
  simp only [d1, d2, d3, d4, d5, d6, d7, d8, d9, d10, Dom.blank, List.length_nil]
  push_cast
  omega

theorem d9_grow (d : Dom) (x : Int) : (d9 d).bytes + x ≤ (d10 d).bytes + (x + 8) := by
  unfold Dom.bytes Dom.textLen
  simp only [d1, d2, d3, d4, d5, d6, d7, d8, d9, d10, Dom.blank, List.length_nil]
  push_cast
  omega

theorem copies9 {V : MEnv} {own : Int → Owner} {src M : MDom} {a : Arena} {d : Dom} {x : Int} (hs : Sources V src d) (hb : Bare9 M)
    (h : Rep V own x M.norm a (d9 d)) :
    CopyEnds V (x + 8) (copyValReg src M a) (d10 d) := by
  have h1 : CopyRuns V (x + 8) (copyValReg src M a) (d10 d) := Rep.dupValReg h hs.valReg hb rfl
  rcases h1 with h1 | ⟨M', a', e, hd, _⟩ | h1
  · exact Or.inl h1
  · have := copyValReg_fits hs.lens e
    omega
  · exact Or.inr h1

theorem copies8 {V : MEnv} {own : Int → Owner} {src M : MDom} {a : Arena} {d : Dom} {x : Int} (hs : Sources V src d) (hb : Bare8 M)
    (h : Rep V own x M.norm a (d8 d)) :
    CopyEnds V (x + 8 + 8) (copyKeyReg src M a >>= fun q => copyValReg src q.1 q.2) (d10 d) := by
  have h1 : CopyRuns V (x + 8) (copyKeyReg src M a) (d9 d) := Rep.dupKeyReg h hs.keyReg hb.1 rfl
  have g : (d9 d).bytes + (x + 8) ≤ (d10 d).bytes + (x + 8 + 8) := by
    have g9 := d9_grow d (x + 8)
    omega
  exact CopyRuns.then h1 g (fun _ _ hd => doom10 hs.lens hd) fun M a own e h => copies9 hs (bare9 hb e) h

theorem copies7 {V : MEnv} {own : Int → Owner} {src M : MDom} {a : Arena} {d : Dom} {x : Int} (hs : Sources V src d) (hb : Bare7 M)
    (h : Rep V own x M.norm a (d7 d)) :
    CopyEnds V (x + 8 + 8 + 8) (copyBoolReg src M a >>= fun q => copyKeyReg src q.1 q.2 >>= fun q => copyValReg src q.1 q.2) (d10 d) := by
  have h1 : CopyRuns V (x + 8) (copyBoolReg src M a) (d8 d) := Rep.dupBoolReg h hs.boolReg hb.1 rfl
  have g : (d8 d).bytes + (x + 8) ≤ (d10 d).bytes + (x + 8 + 8 + 8) := by
    have g8 := d8_grow d (x + 8)
    have g9 := d9_grow d ((x + 8) + 8)
    omega
  exact CopyRuns.then h1 g (fun _ _ hd => doom9 hs.lens hd) fun M a own e h => copies8 hs (bare8 hb e) h

theorem copies6 {V : MEnv} {own : Int → Owner} {src M : MDom} {a : Arena} {d : Dom} {x : Int} (hs : Sources V src d) (hb : Bare6 M)
    (h : Rep V own x M.norm a (d6 d)) :
    CopyEnds V (x + 8 + 8 + 8 + 8) (copyTagReg src M a >>= fun q => copyBoolReg src q.1 q.2 >>= fun q => copyKeyReg src q.1 q.2 >>= fun q => copyValReg src q.1 q.2) (d10 d) := by
  have h1 : CopyRuns V (x + 8) (copyTagReg src M a) (d7 d) := Rep.dupTagReg h hs.tagReg hb.1 rfl
  have g : (d7 d).bytes + (x + 8) ≤ (d10 d).bytes + (x + 8 + 8 + 8 + 8) := by
    have g7 := d7_grow d (x + 8)
    have g8 := d8_grow d ((x + 8) + 8)
    have g9 := d9_grow d (((x + 8) + 8) + 8)
    omega
  exact CopyRuns.then h1 g (fun _ _ hd => doom8 hs.lens hd) fun M a own e h => copies7 hs (bare7 hb e) h

theorem copies5 {V : MEnv} {own : Int → Owner} {src M : MDom} {a : Arena} {d : Dom} {x : Int} (hs : Sources V src d) (hb : Bare5 M)
    (h : Rep V own x M.norm a (d5 d)) :
    CopyEnds V (x + 8 + 8 + 8 + 8 + 8) (copyProps src M a >>= fun q => copyTagReg src q.1 q.2 >>= fun q => copyBoolReg src q.1 q.2 >>= fun q => copyKeyReg src q.1 q.2 >>= fun q => copyValReg src q.1 q.2) (d10 d) := by
  have h1 : CopyRuns V (x + 8) (copyProps src M a) (d6 d) := Rep.dupProps h hs.props hb.1 rfl
  have g : (d6 d).bytes + (x + 8) ≤ (d10 d).bytes + (x + 8 + 8 + 8 + 8 + 8) := by
    have g6 := d6_grow d (x + 8)
    have g7 := d7_grow d ((x + 8) + 8)
    have g8 := d8_grow d (((x + 8) + 8) + 8)
    have g9 := d9_grow d ((((x + 8) + 8) + 8) + 8)
    omega
  exact CopyRuns.then h1 g (fun _ _ hd => doom7 hs.lens hd) fun M a own e h => copies6 hs (bare6 hb e) h

theorem copies4 {V : MEnv} {own : Int → Owner} {src M : MDom} {a : Arena} {d : Dom} {x : Int} (hs : Sources V src d) (hb : Bare4 M)
    (h : Rep V own x M.norm a (d4 d)) :
    CopyEnds V (x + 8 + 8 + 8 + 8 + 8 + 8) (copyBoolProps src M a >>= fun q => copyProps src q.1 q.2 >>= fun q => copyTagReg src q.1 q.2 >>= fun q => copyBoolReg src q.1 q.2 >>= fun q => copyKeyReg src q.1 q.2 >>= fun q => copyValReg src q.1 q.2) (d10 d) := by
  have h1 : CopyRuns V (x + 8) (copyBoolProps src M a) (d5 d) := Rep.dupBoolProps h hs.boolProps hb.1 rfl
  have g : (d5 d).bytes + (x + 8) ≤ (d10 d).bytes + (x + 8 + 8 + 8 + 8 + 8 + 8) := by
    have g5 := d5_grow d (x + 8)
    have g6 := d6_grow d ((x + 8) + 8)
    have g7 := d7_grow d (((x + 8) + 8) + 8)
    have g8 := d8_grow d ((((x + 8) + 8) + 8) + 8)
    have g9 := d9_grow d (((((x + 8) + 8) + 8) + 8) + 8)
    omega
  exact CopyRuns.then h1 g (fun _ _ hd => doom6 hs.lens hd) fun M a own e h => copies5 hs (bare5 hb e) h

theorem copies3 {V : MEnv} {own : Int → Owner} {src M : MDom} {a : Arena} {d : Dom} {x : Int} (hs : Sources V src d) (hb : Bare3 M)
    (h : Rep V own x M.norm a (d3 d)) :
    CopyEnds V (x + 8 + 8 + 8 + 8 + 8 + 8 + 8) (copyNn src M a >>= fun q => copyBoolProps src q.1 q.2 >>= fun q => copyProps src q.1 q.2 >>= fun q => copyTagReg src q.1 q.2 >>= fun q => copyBoolReg src q.1 q.2 >>= fun q => copyKeyReg src q.1 q.2 >>= fun q => copyValReg src q.1 q.2) (d10 d) := by
  have h1 : CopyRuns V (x + 8) (copyNn src M a) (d4 d) := Rep.dupNn h hs.nn hb.1 rfl
  have g : (d4 d).bytes + (x + 8) ≤ (d10 d).bytes + (x + 8 + 8 + 8 + 8 + 8 + 8 + 8) := by
    have g4 := d4_grow d (x + 8)
    have g5 := d5_grow d ((x + 8) + 8)
    have g6 := d6_grow d (((x + 8) + 8) + 8)
    have g7 := d7_grow d ((((x + 8) + 8) + 8) + 8)
    have g8 := d8_grow d (((((x + 8) + 8) + 8) + 8) + 8)
    have g9 := d9_grow d ((((((x + 8) + 8) + 8) + 8) + 8) + 8)
    omega
  exact CopyRuns.then h1 g (fun _ _ hd => doom5 hs.lens hd) fun M a own e h => copies4 hs (bare4 hb e) h

theorem copies2 {V : MEnv} {own : Int → Owner} {src M : MDom} {a : Arena} {d : Dom} {x : Int} (hs : Sources V src d) (hb : Bare2 M)
    (h : Rep V own x M.norm a (d2 d)) :
    CopyEnds V (x + 8 + 8 + 8 + 8 + 8 + 8 + 8 + 8) (copyPc src M a >>= fun q => copyNn src q.1 q.2 >>= fun q => copyBoolProps src q.1 q.2 >>= fun q => copyProps src q.1 q.2 >>= fun q => copyTagReg src q.1 q.2 >>= fun q => copyBoolReg src q.1 q.2 >>= fun q => copyKeyReg src q.1 q.2 >>= fun q => copyValReg src q.1 q.2) (d10 d) := by
  have h1 : CopyRuns V (x + 8) (copyPc src M a) (d3 d) := Rep.dupPc h hs.pc hb.1 rfl
  have g : (d3 d).bytes + (x + 8) ≤ (d10 d).bytes + (x + 8 + 8 + 8 + 8 + 8 + 8 + 8 + 8) := by
    have g3 := d3_grow d (x + 8)
    have g4 := d4_grow d ((x + 8) + 8)
    have g5 := d5_grow d (((x + 8) + 8) + 8)
    have g6 := d6_grow d ((((x + 8) + 8) + 8) + 8)
    have g7 := d7_grow d (((((x + 8) + 8) + 8) + 8) + 8)
    have g8 := d8_grow d ((((((x + 8) + 8) + 8) + 8) + 8) + 8)
    have g9 := d9_grow d (((((((x + 8) + 8) + 8) + 8) + 8) + 8) + 8)
    omega
  exact CopyRuns.then h1 g (fun _ _ hd => doom4 hs.lens hd) fun M a own e h => copies3 hs (bare3 hb e) h

theorem copies1 {V : MEnv} {own : Int → Owner} {src M : MDom} {a : Arena} {d : Dom} {x : Int} (hs : Sources V src d) (hb : Bare1 M)
    (h : Rep V own x M.norm a (d1 d)) :
    CopyEnds V (x + 8 + 8 + 8 + 8 + 8 + 8 + 8 + 8 + 8) (copyFc src M a >>= fun q => copyPc src q.1 q.2 >>= fun q => copyNn src q.1 q.2 >>= fun q => copyBoolProps src q.1 q.2 >>= fun q => copyProps src q.1 q.2 >>= fun q => copyTagReg src q.1 q.2 >>= fun q => copyBoolReg src q.1 q.2 >>= fun q => copyKeyReg src q.1 q.2 >>= fun q => copyValReg src q.1 q.2) (d10 d) := by
  have h1 : CopyRuns V (x + 8) (copyFc src M a) (d2 d) := Rep.dupFc h hs.fc hb.1 rfl
  have g : (d2 d).bytes + (x + 8) ≤ (d10 d).bytes + (x + 8 + 8 + 8 + 8 + 8 + 8 + 8 + 8 + 8) := by
    have g2 := d2_grow d (x + 8)
    have g3 := d3_grow d ((x + 8) + 8)
    have g4 := d4_grow d (((x + 8) + 8) + 8)
    have g5 := d5_grow d ((((x + 8) + 8) + 8) + 8)
    have g6 := d6_grow d (((((x + 8) + 8) + 8) + 8) + 8)
    have g7 := d7_grow d ((((((x + 8) + 8) + 8) + 8) + 8) + 8)
    have g8 := d8_grow d (((((((x + 8) + 8) + 8) + 8) + 8) + 8) + 8)
    have g9 := d9_grow d ((((((((x + 8) + 8) + 8) + 8) + 8) + 8) + 8) + 8)
    omega
  exact CopyRuns.then h1 g (fun _ _ hd => doom3 hs.lens hd) fun M a own e h => copies2 hs (bare2 hb e) h

theorem copies0 {V : MEnv} {own : Int → Owner} {src M : MDom} {a : Arena} {d : Dom} {x : Int} (hs : Sources V src d) (hb : M = .zero)
    (h : Rep V own x M.norm a Dom.blank) :
    CopyEnds V (x + 8 + 8 + 8 + 8 + 8 + 8 + 8 + 8 + 8 + 8) (copyNodes src M a >>= fun q => copyFc src q.1 q.2 >>= fun q => copyPc src q.1 q.2 >>= fun q => copyNn src q.1 q.2 >>= fun q => copyBoolProps src q.1 q.2 >>= fun q => copyProps src q.1 q.2 >>= fun q => copyTagReg src q.1 q.2 >>= fun q => copyBoolReg src q.1 q.2 >>= fun q => copyKeyReg src q.1 q.2 >>= fun q => copyValReg src q.1 q.2) (d10 d) := by
  have h1 : CopyRuns V (x + 8) (copyNodes src M a) (d1 d) := Rep.dupNodes h hs.nodes (by rw [hb]; rfl) rfl hs.few
  have g : (d1 d).bytes + (x + 8) ≤ (d10 d).bytes + (x + 8 + 8 + 8 + 8 + 8 + 8 + 8 + 8 + 8 + 8) := by
    have g1 := d1_grow d (x + 8)
    have g2 := d2_grow d ((x + 8) + 8)
    have g3 := d3_grow d (((x + 8) + 8) + 8)
    have g4 := d4_grow d ((((x + 8) + 8) + 8) + 8)
    have g5 := d5_grow d (((((x + 8) + 8) + 8) + 8) + 8)
    have g6 := d6_grow d ((((((x + 8) + 8) + 8) + 8) + 8) + 8)
    have g7 := d7_grow d (((((((x + 8) + 8) + 8) + 8) + 8) + 8) + 8)
    have g8 := d8_grow d ((((((((x + 8) + 8) + 8) + 8) + 8) + 8) + 8) + 8)
    have g9 := d9_grow d (((((((((x + 8) + 8) + 8) + 8) + 8) + 8) + 8) + 8) + 8)
    omega
  exact CopyRuns.then h1 g (fun _ _ hd => doom2 hs.lens hd) fun M a own e h => copies1 hs (bare1 hb e) h

/-- The tables of a duplicate. -/
theorem copyTables_runs {V : MEnv} {own : Int → Owner} {src : MDom} {a : Arena} {d : Dom} (hs : Sources V src d)
    (h : Rep V own (-80) MDom.zero a .blank) :
    CopyEnds V 0 (copyNodes src .zero a >>= fun q => copyFc src q.1 q.2 >>= fun q => copyPc src q.1 q.2 >>= fun q => copyNn src q.1 q.2 >>= fun q => copyBoolProps src q.1 q.2 >>= fun q => copyProps src q.1 q.2 >>= fun q => copyTagReg src q.1 q.2 >>= fun q => copyBoolReg src q.1 q.2 >>= fun q => copyKeyReg src q.1 q.2 >>= fun q => copyValReg src q.1 q.2) d.tables := by
  have hz : (-80 : Int) + 8 + 8 + 8 + 8 + 8 + 8 + 8 + 8 + 8 + 8 = 0 := by norm_num
  have h' : Rep V own (-80) MDom.zero.norm a .blank := h
  have := copies0 (x := -80) hs rfl h'
  rw [hz, d10_eq] at this
  exact this

end Flo
