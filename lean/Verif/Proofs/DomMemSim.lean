import Verif.Proofs.DomBytes
/-!
# The DOM in memory: relating runs, names, nodes and tags
-/
namespace Flo
open Spec

/-- The memory program `x` follows the program `p`: it ends in a related state, or jumps because the arena has fewer than `L r` bytes;
where `p` jumps, `x` jumps. -/
structure SimC {α β : Type} (V : MEnv) (L : α → Int) (p : Out α) (x : Out β) (R : α → β → Prop) : Prop where
  ok : ∀ r, p = .ok r → (x = .longjmp ∧ V.stop < V.base + L r) ∨ ∃ b, x = .ok b ∧ R r b
  jump : p = .longjmp → x = .longjmp

theorem SimC.bind {α β γ δ : Type} {V : MEnv} {L1 : α → Int} {L2 : γ → Int} {p : Out α} {f : α → Out γ} {x : Out β} {g : β → Out δ}
    {R1 : α → β → Prop} {R2 : γ → δ → Prop} (h : SimC V L1 p x R1) (hm : ∀ r, p = .ok r → Ok (fun q => L1 r ≤ L2 q) (f r))
    (hf : ∀ r b, p = .ok r → R1 r b → SimC V L2 (f r) (g b) R2) : SimC V L2 (p >>= f) (x >>= g) R2 := by
  constructor
  · intro q hq
    cases p with
    | ok r =>
      rw [Out.bind_ok] at hq
      rcases h.ok r rfl with ⟨hx, hs⟩ | ⟨b, hx, hR⟩
      · left
        rw [hx]
        have := hm r rfl q hq
        exact ⟨rfl, by omega⟩
      · rw [hx, Out.bind_ok]
        exact (hf r b rfl hR).ok q hq
    | longjmp => cases hq
    | ub w => cases hq
    | hang => cases hq
  · intro hq
    cases p with
    | ok r =>
      rw [Out.bind_ok] at hq
      rcases h.ok r rfl with ⟨hx, hs⟩ | ⟨b, hx, hR⟩
      · rw [hx]; rfl
      · rw [hx, Out.bind_ok]
        exact (hf r b rfl hR).jump hq
    | longjmp => rw [h.jump rfl]; rfl
    | ub w => cases hq
    | hang => cases hq

theorem SimC.same {α γ δ : Type} {V : MEnv} {L2 : γ → Int} {p : Out α} {f : α → Out γ} {g : α → Out δ}
    {R2 : γ → δ → Prop} (hf : ∀ r, p = .ok r → SimC V L2 (f r) (g r) R2) : SimC V L2 (p >>= f) (p >>= g) R2 := by
  cases p with
  | ok r => exact hf r rfl
  | longjmp => exact ⟨fun _ e => (by cases e), fun _ => rfl⟩
  | ub w => exact ⟨fun _ e => (by cases e), fun e => by cases e⟩
  | hang => exact ⟨fun _ e => (by cases e), fun e => by cases e⟩

theorem SimC.okR {α β : Type} {V : MEnv} {L : α → Int} {r : α} {b : β} {R : α → β → Prop} (h : R r b) : SimC V L (.ok r) (.ok b) R :=
  ⟨fun q e => by cases e; exact Or.inr ⟨b, rfl, h⟩, fun e => by cases e⟩

theorem SimC.hang {α β : Type} {V : MEnv} {L : α → Int} {x : Out β} {R : α → β → Prop} : SimC V L (.hang) x R :=
  ⟨fun q e => (by cases e), fun e => by cases e⟩

theorem SimC.ub {α β : Type} {V : MEnv} {L : α → Int} {w : Why} {x : Out β} {R : α → β → Prop} : SimC V L (.ub w) x R :=
  ⟨fun q e => (by cases e), fun e => by cases e⟩

theorem SimC.jumps {α β : Type} {V : MEnv} {L : α → Int} {R : α → β → Prop} : SimC V L (.longjmp) (.longjmp) R :=
  ⟨fun q e => (by cases e), fun _ => rfl⟩

theorem SimC.mono {α β : Type} {V : MEnv} {L L' : α → Int} {p : Out α} {x : Out β} {R R' : α → β → Prop} (h : SimC V L p x R)
    (hL : ∀ r, p = .ok r → L r ≤ L' r) (hR : ∀ r b, p = .ok r → R r b → R' r b) : SimC V L' p x R' := by
  refine ⟨fun r e => ?_, h.jump⟩
  rcases h.ok r e with ⟨h1, h2⟩ | ⟨b, h1, h2⟩
  · exact Or.inl ⟨h1, by have := hL r e; omega⟩
  · exact Or.inr ⟨b, h1, hR r b e h2⟩

/-- The memory represents the DOM. -/
def DomR (V : MEnv) (d : Dom) (b : MDom × Arena) : Prop := ∃ own, Rep V own 0 b.1 b.2 d

/-- The memory represents the DOM, and the identifiers agree. -/
def IdR (V : MEnv) (r : Nat × Dom) (b : Nat × MDom × Arena) : Prop := b.1 = r.1 ∧ r.1 < 65536 ∧ ∃ own, Rep V own 0 b.2.1 b.2.2 r.2

theorem PushRuns.sim {V : MEnv} {y : Out (MDom × Arena)} {d' : Dom} (h : PushRuns V 0 (d'.bytes + 0) y d') :
    SimC V Dom.bytes (.ok d') y (DomR V) := by
  refine ⟨fun r e => ?_, fun e => by cases e⟩
  cases e
  rcases h with ⟨h1, h2⟩ | ⟨M, a, own, h1, h2⟩
  · exact Or.inl ⟨h1, by omega⟩
  · exact Or.inr ⟨_, h1, own, h2⟩

/-- A step that leaves the DOM's memory alone. -/
theorem Rep.other {V : MEnv} {own own' : Int → Owner} {O : Owner → Prop} {x x' : Int} {M : MDom} {a a' : Arena} {d : Dom} (h : Rep V own x M a d)
    (hA : Around O own a own' a') (hO : ∀ o, O o → o = .arr 10) (hx : a'.beg + x ≤ a.beg + x') : Rep V own' x' M a' d := by
  have h1 : ∀ k, k < 10 → ¬O (.arr k) := fun k hk h => by have := hO _ h; injection this; omega
  have h2 : ¬O .fixed := fun h => by have := hO _ h; cases this
  have h3 : ∀ j e, ¬O (.cell j e) := fun j e h => by have := hO _ h; cases this
  have h4 : ¬O .other := fun h => by have := hO _ h; cases this
  exact {
      pos := h.pos
      lo := h.lo.trans hA.beg
      above := h.above.trans hA.beg
      top := hA.top
      stop := hA.stop.trans h.stop
      max := h.max
      free := hA.freed h.free
      out := hA.out h2 h.out
      oth := hA.oth h4 h.oth
      nodes := h.nodes.other nodeAt_movable hA (h1 _ (by decide)) (by simp) h2
      fc := h.fc.other rowAt_movable hA (h1 _ (by decide)) (by simp) h2
      pc := h.pc.other rowAt_movable hA (h1 _ (by decide)) (by simp) h2
      nn := h.nn.other rowAt_movable hA (h1 _ (by decide)) (by simp) h2
      boolProps := h.boolProps.other rowAt_movable hA (h1 _ (by decide)) (by simp) h2
      props := h.props.other propAt_movable hA (h1 _ (by decide)) (by simp) h2
      tagReg := h.tagReg.other tagAt_movable hA (h1 _ (by decide)) (by simp) h2
      boolReg := h.boolReg.other nameAt_movable hA (h1 _ (by decide)) (by simp) h2
      keyReg := h.keyReg.other nameAt_movable hA (h1 _ (by decide)) (by simp) h2
      valReg := h.valReg.other nameAt_movable hA (h1 _ (by decide)) (by simp) h2
      tagMap := h.tagMap.other hA (h3 _) h2
      boolMap := h.boolMap.other hA (h3 _) h2
      keyMap := h.keyMap.other hA (h3 _) h2
      valMap := h.valMap.other hA (h3 _) h2
      few := h.few
      led := by have := h.led; omega }

theorem not_cell_arr {j k : Nat} : ¬IsCell j (.arr k) := by rintro ⟨e, he⟩; cases he
theorem not_cell_fixed {j : Nat} : ¬IsCell j .fixed := by rintro ⟨e, he⟩; cases he
theorem not_cell_other {j : Nat} : ¬IsCell j .other := by rintro ⟨e, he⟩; cases he
theorem not_cell {j j' e : Nat} (h : j ≠ j') : ¬IsCell j (.cell j' e) := by rintro ⟨e, he⟩; injection he with he _; exact h he.symm

theorem insertMap_jump {own : Int → Owner} {j : Nat} {a : Arena} {m : MMap} {am : AutoMap} {key : MStr} {k : Str} (h : MapRep own j a.mem m am)
    (hread : key.read a.mem = k) (hr : am.insert k = .longjmp) : memInsertMap key m a = .longjmp := by
  unfold AutoMap.insert at hr
  unfold memInsertMap
  rw [hread, h.ident]
  rcases hi : am.root.insert autoSlot k (am.identity + 1) (hashDjb2 k) with ⟨o, t⟩
  rw [hi] at hr
  have hrun : am.root.run < am.identity + 1 := by have := h.run; omega
  cases o with
  | some v => cases hr
  | none =>
    dsimp only at hr
    split at hr
    · next hid =>
      obtain ⟨g1, link, g2, g3⟩ := trieLoop_new _ _ (am.identity + 1) _ _ _ .root h.trie hrun hi
      dsimp only
      rw [g2]
      simp only [Out.bind_ok]
      rw [if_pos hid]
    · cases hr

theorem Rep.insTagAt {V : MEnv} {own : Int → Owner} {M : MDom} {a : Arena} {d : Dom} (h : Rep V own 0 M a d) {r : MStr} {s : Str}
    (hkl : r.len = s.length) (hk0 : 0 ≤ r.ptr) (hkf : r.ptr < 2 ^ 64 ∧ r.len < 2 ^ 64) (hkm : StrAt a.mem own r.ptr s) :
    SimC V (fun q => Dom.bytes { d with tagMap := q.map }) (d.tagMap.insert s) (memInsertMap r M.tagMap a)
      (fun q q' => q'.wasInserted = q.wasInserted ∧ q'.entryIndex = q.entryIndex ∧ q.entryIndex < 65536 ∧
        ∃ own', Rep V own' 0 { M with tagMap := q'.map } q'.arena { d with tagMap := q.map }) := by
  have hcaps := h.caps
  have hled := h.led
  have hst := h.stop
  have hpos := h.pos
  have hlo := h.lo
  refine ⟨fun q hq => ?_, fun hq => insertMap_jump h.tagMap (MStr.read_eq hkl fun i c hc => (hkm i c hc).2) hq⟩
  obtain ⟨hid, hidx, hres⟩ := insertMap_rep h.tagMap (by omega) h.top (by rw [hst]; exact h.max) h.free hkl hk0 hkf hkm hq
  rcases hres with ⟨hj, hw, hs⟩ | ⟨own', r', he, hw, hi, hr, hA, hl⟩
  · left
    rw [hj]
    refine ⟨rfl, ?_⟩
    rw [hw, if_pos rfl] at hid
    unfold MDom.ledger at hled
    unfold Dom.bytes Dom.textLen
    unfold Dom.textLen at hled
    dsimp only
    rw [hid]
    push_cast
    omega
  · right
    refine ⟨r', he, hw, hi, hidx, own', ?_⟩
    have hrid := hr.ident
    exact {
      pos := h.pos
      lo := h.lo.trans hA.beg
      above := h.above.trans hA.beg
      top := hA.top
      stop := hA.stop.trans h.stop
      max := h.max
      free := hA.freed h.free
      out := hA.out not_cell_fixed h.out
      oth := hA.oth not_cell_other h.oth
      nodes := h.nodes.other nodeAt_movable hA not_cell_arr (by simp) not_cell_fixed
      fc := h.fc.other rowAt_movable hA not_cell_arr (by simp) not_cell_fixed
      pc := h.pc.other rowAt_movable hA not_cell_arr (by simp) not_cell_fixed
      nn := h.nn.other rowAt_movable hA not_cell_arr (by simp) not_cell_fixed
      boolProps := h.boolProps.other rowAt_movable hA not_cell_arr (by simp) not_cell_fixed
      props := h.props.other propAt_movable hA not_cell_arr (by simp) not_cell_fixed
      tagReg := h.tagReg.other tagAt_movable hA not_cell_arr (by simp) not_cell_fixed
      boolReg := h.boolReg.other nameAt_movable hA not_cell_arr (by simp) not_cell_fixed
      keyReg := h.keyReg.other nameAt_movable hA not_cell_arr (by simp) not_cell_fixed
      valReg := h.valReg.other nameAt_movable hA not_cell_arr (by simp) not_cell_fixed
      boolMap := h.boolMap.other hA (fun _ => not_cell (by decide)) not_cell_fixed
      keyMap := h.keyMap.other hA (fun _ => not_cell (by decide)) not_cell_fixed
      valMap := h.valMap.other hA (fun _ => not_cell (by decide)) not_cell_fixed
      tagMap := hr
      few := h.few
      led := by
        unfold MDom.ledger at *
        unfold Dom.textLen at *
        dsimp only at *
        rw [hrid, hid]
        cases hwi : q.wasInserted
        · rw [hwi, if_neg (by decide)] at hl
          simp only [Bool.false_eq_true, if_false]
          omega
        · rw [hwi, if_pos rfl] at hl
          simp only [if_true]
          push_cast
          omega }

theorem Rep.insTag {V : MEnv} {own : Int → Owner} {M : MDom} {a : Arena} {d : Dom} (h : Rep V own 0 M a d) {r : MStr} {s : Str}
    (ht : Tok V r s) : SimC V (fun q => Dom.bytes { d with tagMap := q.map }) (d.tagMap.insert s) (memInsertMap r M.tagMap a)
      (fun q q' => q'.wasInserted = q.wasInserted ∧ q'.entryIndex = q.entryIndex ∧ q.entryIndex < 65536 ∧
        ∃ own', Rep V own' 0 { M with tagMap := q'.map } q'.arena { d with tagMap := q.map }) :=
  h.insTagAt ht.len ht.pos ht.fits (h.tok ht)

theorem Rep.insBoolAt {V : MEnv} {own : Int → Owner} {M : MDom} {a : Arena} {d : Dom} (h : Rep V own 0 M a d) {r : MStr} {s : Str}
    (hkl : r.len = s.length) (hk0 : 0 ≤ r.ptr) (hkf : r.ptr < 2 ^ 64 ∧ r.len < 2 ^ 64) (hkm : StrAt a.mem own r.ptr s) :
    SimC V (fun q => Dom.bytes { d with boolMap := q.map }) (d.boolMap.insert s) (memInsertMap r M.boolMap a)
      (fun q q' => q'.wasInserted = q.wasInserted ∧ q'.entryIndex = q.entryIndex ∧ q.entryIndex < 65536 ∧
        ∃ own', Rep V own' 0 { M with boolMap := q'.map } q'.arena { d with boolMap := q.map }) := by
  have hcaps := h.caps
  have hled := h.led
  have hst := h.stop
  have hpos := h.pos
  have hlo := h.lo
  refine ⟨fun q hq => ?_, fun hq => insertMap_jump h.boolMap (MStr.read_eq hkl fun i c hc => (hkm i c hc).2) hq⟩
  obtain ⟨hid, hidx, hres⟩ := insertMap_rep h.boolMap (by omega) h.top (by rw [hst]; exact h.max) h.free hkl hk0 hkf hkm hq
  rcases hres with ⟨hj, hw, hs⟩ | ⟨own', r', he, hw, hi, hr, hA, hl⟩
  · left
    rw [hj]
    refine ⟨rfl, ?_⟩
    rw [hw, if_pos rfl] at hid
    unfold MDom.ledger at hled
    unfold Dom.bytes Dom.textLen
    unfold Dom.textLen at hled
    dsimp only
    rw [hid]
    push_cast
    omega
  · right
    refine ⟨r', he, hw, hi, hidx, own', ?_⟩
    have hrid := hr.ident
    exact {
      pos := h.pos
      lo := h.lo.trans hA.beg
      above := h.above.trans hA.beg
      top := hA.top
      stop := hA.stop.trans h.stop
      max := h.max
      free := hA.freed h.free
      out := hA.out not_cell_fixed h.out
      oth := hA.oth not_cell_other h.oth
      nodes := h.nodes.other nodeAt_movable hA not_cell_arr (by simp) not_cell_fixed
      fc := h.fc.other rowAt_movable hA not_cell_arr (by simp) not_cell_fixed
      pc := h.pc.other rowAt_movable hA not_cell_arr (by simp) not_cell_fixed
      nn := h.nn.other rowAt_movable hA not_cell_arr (by simp) not_cell_fixed
      boolProps := h.boolProps.other rowAt_movable hA not_cell_arr (by simp) not_cell_fixed
      props := h.props.other propAt_movable hA not_cell_arr (by simp) not_cell_fixed
      tagReg := h.tagReg.other tagAt_movable hA not_cell_arr (by simp) not_cell_fixed
      boolReg := h.boolReg.other nameAt_movable hA not_cell_arr (by simp) not_cell_fixed
      keyReg := h.keyReg.other nameAt_movable hA not_cell_arr (by simp) not_cell_fixed
      valReg := h.valReg.other nameAt_movable hA not_cell_arr (by simp) not_cell_fixed
      tagMap := h.tagMap.other hA (fun _ => not_cell (by decide)) not_cell_fixed
      keyMap := h.keyMap.other hA (fun _ => not_cell (by decide)) not_cell_fixed
      valMap := h.valMap.other hA (fun _ => not_cell (by decide)) not_cell_fixed
      boolMap := hr
      few := h.few
      led := by
        unfold MDom.ledger at *
        unfold Dom.textLen at *
        dsimp only at *
        rw [hrid, hid]
        cases hwi : q.wasInserted
        · rw [hwi, if_neg (by decide)] at hl
          simp only [Bool.false_eq_true, if_false]
          omega
        · rw [hwi, if_pos rfl] at hl
          simp only [if_true]
          push_cast
          omega }

theorem Rep.insBool {V : MEnv} {own : Int → Owner} {M : MDom} {a : Arena} {d : Dom} (h : Rep V own 0 M a d) {r : MStr} {s : Str}
    (ht : Tok V r s) : SimC V (fun q => Dom.bytes { d with boolMap := q.map }) (d.boolMap.insert s) (memInsertMap r M.boolMap a)
      (fun q q' => q'.wasInserted = q.wasInserted ∧ q'.entryIndex = q.entryIndex ∧ q.entryIndex < 65536 ∧
        ∃ own', Rep V own' 0 { M with boolMap := q'.map } q'.arena { d with boolMap := q.map }) :=
  h.insBoolAt ht.len ht.pos ht.fits (h.tok ht)

theorem Rep.internBool {V : MEnv} {own : Int → Owner} {M : MDom} {a : Arena} {d : Dom} (h : Rep V own 0 M a d) {r : MStr} {s : Str}
    (ht : Tok V r s) : SimC V (fun q => q.2.bytes) (internBool s d) (memInternBool r M a) (IdR V) := by
  unfold Flo.internBool memInternBool
  refine (h.insBool ht).bind (fun q _ => Ok.ok ?_) fun q q' _ hR => ?_
  · unfold Dom.bytes Dom.textLen
    cases q.wasInserted <;> simp
  · obtain ⟨h1, h2, h3, own', h4⟩ := hR
    cases hw : q.wasInserted
    · rw [h1, hw, if_neg (by decide)]
      exact SimC.okR ⟨h2, h3, own', by simpa using h4⟩
    · rw [h1, hw, if_pos rfl]
      have hrun := (h4.addBoolReg ht).sim
      refine SimC.mono (L := fun q => q.2.bytes) ?_ (fun r _ => le_refl _) (fun _ _ _ h => h)
      have := hrun.bind (L2 := fun q : Nat × Dom => q.2.bytes) (f := fun d' => .ok (q.entryIndex, d'))
        (g := fun p => .ok (q'.entryIndex, p.1, p.2)) (R2 := IdR V) (fun r _ => Ok.ok (le_refl _)) fun r b _ hR => by
          obtain ⟨o, hR⟩ := hR
          exact SimC.okR ⟨h2, h3, o, hR⟩
      simpa using this

theorem Rep.insKeyAt {V : MEnv} {own : Int → Owner} {M : MDom} {a : Arena} {d : Dom} (h : Rep V own 0 M a d) {r : MStr} {s : Str}
    (hkl : r.len = s.length) (hk0 : 0 ≤ r.ptr) (hkf : r.ptr < 2 ^ 64 ∧ r.len < 2 ^ 64) (hkm : StrAt a.mem own r.ptr s) :
    SimC V (fun q => Dom.bytes { d with keyMap := q.map }) (d.keyMap.insert s) (memInsertMap r M.keyMap a)
      (fun q q' => q'.wasInserted = q.wasInserted ∧ q'.entryIndex = q.entryIndex ∧ q.entryIndex < 65536 ∧
        ∃ own', Rep V own' 0 { M with keyMap := q'.map } q'.arena { d with keyMap := q.map }) := by
  have hcaps := h.caps
  have hled := h.led
  have hst := h.stop
  have hpos := h.pos
  have hlo := h.lo
  refine ⟨fun q hq => ?_, fun hq => insertMap_jump h.keyMap (MStr.read_eq hkl fun i c hc => (hkm i c hc).2) hq⟩
  obtain ⟨hid, hidx, hres⟩ := insertMap_rep h.keyMap (by omega) h.top (by rw [hst]; exact h.max) h.free hkl hk0 hkf hkm hq
  rcases hres with ⟨hj, hw, hs⟩ | ⟨own', r', he, hw, hi, hr, hA, hl⟩
  · left
    rw [hj]
    refine ⟨rfl, ?_⟩
    rw [hw, if_pos rfl] at hid
    unfold MDom.ledger at hled
    unfold Dom.bytes Dom.textLen
    unfold Dom.textLen at hled
    dsimp only
    rw [hid]
    push_cast
    omega
  · right
    refine ⟨r', he, hw, hi, hidx, own', ?_⟩
    have hrid := hr.ident
    exact {
      pos := h.pos
      lo := h.lo.trans hA.beg
      above := h.above.trans hA.beg
      top := hA.top
      stop := hA.stop.trans h.stop
      max := h.max
      free := hA.freed h.free
      out := hA.out not_cell_fixed h.out
      oth := hA.oth not_cell_other h.oth
      nodes := h.nodes.other nodeAt_movable hA not_cell_arr (by simp) not_cell_fixed
      fc := h.fc.other rowAt_movable hA not_cell_arr (by simp) not_cell_fixed
      pc := h.pc.other rowAt_movable hA not_cell_arr (by simp) not_cell_fixed
      nn := h.nn.other rowAt_movable hA not_cell_arr (by simp) not_cell_fixed
      boolProps := h.boolProps.other rowAt_movable hA not_cell_arr (by simp) not_cell_fixed
      props := h.props.other propAt_movable hA not_cell_arr (by simp) not_cell_fixed
      tagReg := h.tagReg.other tagAt_movable hA not_cell_arr (by simp) not_cell_fixed
      boolReg := h.boolReg.other nameAt_movable hA not_cell_arr (by simp) not_cell_fixed
      keyReg := h.keyReg.other nameAt_movable hA not_cell_arr (by simp) not_cell_fixed
      valReg := h.valReg.other nameAt_movable hA not_cell_arr (by simp) not_cell_fixed
      tagMap := h.tagMap.other hA (fun _ => not_cell (by decide)) not_cell_fixed
      boolMap := h.boolMap.other hA (fun _ => not_cell (by decide)) not_cell_fixed
      valMap := h.valMap.other hA (fun _ => not_cell (by decide)) not_cell_fixed
      keyMap := hr
      few := h.few
      led := by
        unfold MDom.ledger at *
        unfold Dom.textLen at *
        dsimp only at *
        rw [hrid, hid]
        cases hwi : q.wasInserted
        · rw [hwi, if_neg (by decide)] at hl
          simp only [Bool.false_eq_true, if_false]
          omega
        · rw [hwi, if_pos rfl] at hl
          simp only [if_true]
          push_cast
          omega }

theorem Rep.insKey {V : MEnv} {own : Int → Owner} {M : MDom} {a : Arena} {d : Dom} (h : Rep V own 0 M a d) {r : MStr} {s : Str}
    (ht : Tok V r s) : SimC V (fun q => Dom.bytes { d with keyMap := q.map }) (d.keyMap.insert s) (memInsertMap r M.keyMap a)
      (fun q q' => q'.wasInserted = q.wasInserted ∧ q'.entryIndex = q.entryIndex ∧ q.entryIndex < 65536 ∧
        ∃ own', Rep V own' 0 { M with keyMap := q'.map } q'.arena { d with keyMap := q.map }) :=
  h.insKeyAt ht.len ht.pos ht.fits (h.tok ht)

theorem Rep.internKey {V : MEnv} {own : Int → Owner} {M : MDom} {a : Arena} {d : Dom} (h : Rep V own 0 M a d) {r : MStr} {s : Str}
    (ht : Tok V r s) : SimC V (fun q => q.2.bytes) (internKey s d) (memInternKey r M a) (IdR V) := by
  unfold Flo.internKey memInternKey
  refine (h.insKey ht).bind (fun q _ => Ok.ok ?_) fun q q' _ hR => ?_
  · unfold Dom.bytes Dom.textLen
    cases q.wasInserted <;> simp
  · obtain ⟨h1, h2, h3, own', h4⟩ := hR
    cases hw : q.wasInserted
    · rw [h1, hw, if_neg (by decide)]
      exact SimC.okR ⟨h2, h3, own', by simpa using h4⟩
    · rw [h1, hw, if_pos rfl]
      have hrun := (h4.addKeyReg ht).sim
      refine SimC.mono (L := fun q => q.2.bytes) ?_ (fun r _ => le_refl _) (fun _ _ _ h => h)
      have := hrun.bind (L2 := fun q : Nat × Dom => q.2.bytes) (f := fun d' => .ok (q.entryIndex, d'))
        (g := fun p => .ok (q'.entryIndex, p.1, p.2)) (R2 := IdR V) (fun r _ => Ok.ok (le_refl _)) fun r b _ hR => by
          obtain ⟨o, hR⟩ := hR
          exact SimC.okR ⟨h2, h3, o, hR⟩
      simpa using this

theorem Rep.insValAt {V : MEnv} {own : Int → Owner} {M : MDom} {a : Arena} {d : Dom} (h : Rep V own 0 M a d) {r : MStr} {s : Str}
    (hkl : r.len = s.length) (hk0 : 0 ≤ r.ptr) (hkf : r.ptr < 2 ^ 64 ∧ r.len < 2 ^ 64) (hkm : StrAt a.mem own r.ptr s) :
    SimC V (fun q => Dom.bytes { d with valMap := q.map }) (d.valMap.insert s) (memInsertMap r M.valMap a)
      (fun q q' => q'.wasInserted = q.wasInserted ∧ q'.entryIndex = q.entryIndex ∧ q.entryIndex < 65536 ∧
        ∃ own', Rep V own' 0 { M with valMap := q'.map } q'.arena { d with valMap := q.map }) := by
  have hcaps := h.caps
  have hled := h.led
  have hst := h.stop
  have hpos := h.pos
  have hlo := h.lo
  refine ⟨fun q hq => ?_, fun hq => insertMap_jump h.valMap (MStr.read_eq hkl fun i c hc => (hkm i c hc).2) hq⟩
  obtain ⟨hid, hidx, hres⟩ := insertMap_rep h.valMap (by omega) h.top (by rw [hst]; exact h.max) h.free hkl hk0 hkf hkm hq
  rcases hres with ⟨hj, hw, hs⟩ | ⟨own', r', he, hw, hi, hr, hA, hl⟩
  · left
    rw [hj]
    refine ⟨rfl, ?_⟩
    rw [hw, if_pos rfl] at hid
    unfold MDom.ledger at hled
    unfold Dom.bytes Dom.textLen
    unfold Dom.textLen at hled
    dsimp only
    rw [hid]
    push_cast
    omega
  · right
    refine ⟨r', he, hw, hi, hidx, own', ?_⟩
    have hrid := hr.ident
    exact {
      pos := h.pos
      lo := h.lo.trans hA.beg
      above := h.above.trans hA.beg
      top := hA.top
      stop := hA.stop.trans h.stop
      max := h.max
      free := hA.freed h.free
      out := hA.out not_cell_fixed h.out
      oth := hA.oth not_cell_other h.oth
      nodes := h.nodes.other nodeAt_movable hA not_cell_arr (by simp) not_cell_fixed
      fc := h.fc.other rowAt_movable hA not_cell_arr (by simp) not_cell_fixed
      pc := h.pc.other rowAt_movable hA not_cell_arr (by simp) not_cell_fixed
      nn := h.nn.other rowAt_movable hA not_cell_arr (by simp) not_cell_fixed
      boolProps := h.boolProps.other rowAt_movable hA not_cell_arr (by simp) not_cell_fixed
      props := h.props.other propAt_movable hA not_cell_arr (by simp) not_cell_fixed
      tagReg := h.tagReg.other tagAt_movable hA not_cell_arr (by simp) not_cell_fixed
      boolReg := h.boolReg.other nameAt_movable hA not_cell_arr (by simp) not_cell_fixed
      keyReg := h.keyReg.other nameAt_movable hA not_cell_arr (by simp) not_cell_fixed
      valReg := h.valReg.other nameAt_movable hA not_cell_arr (by simp) not_cell_fixed
      tagMap := h.tagMap.other hA (fun _ => not_cell (by decide)) not_cell_fixed
      boolMap := h.boolMap.other hA (fun _ => not_cell (by decide)) not_cell_fixed
      keyMap := h.keyMap.other hA (fun _ => not_cell (by decide)) not_cell_fixed
      valMap := hr
      few := h.few
      led := by
        unfold MDom.ledger at *
        unfold Dom.textLen at *
        dsimp only at *
        rw [hrid, hid]
        cases hwi : q.wasInserted
        · rw [hwi, if_neg (by decide)] at hl
          simp only [Bool.false_eq_true, if_false]
          omega
        · rw [hwi, if_pos rfl] at hl
          simp only [if_true]
          push_cast
          omega }

theorem Rep.insVal {V : MEnv} {own : Int → Owner} {M : MDom} {a : Arena} {d : Dom} (h : Rep V own 0 M a d) {r : MStr} {s : Str}
    (ht : Tok V r s) : SimC V (fun q => Dom.bytes { d with valMap := q.map }) (d.valMap.insert s) (memInsertMap r M.valMap a)
      (fun q q' => q'.wasInserted = q.wasInserted ∧ q'.entryIndex = q.entryIndex ∧ q.entryIndex < 65536 ∧
        ∃ own', Rep V own' 0 { M with valMap := q'.map } q'.arena { d with valMap := q.map }) :=
  h.insValAt ht.len ht.pos ht.fits (h.tok ht)

theorem Rep.internVal {V : MEnv} {own : Int → Owner} {M : MDom} {a : Arena} {d : Dom} (h : Rep V own 0 M a d) {r : MStr} {s : Str}
    (ht : Tok V r s) : SimC V (fun q => q.2.bytes) (internVal s d) (memInternVal r M a) (IdR V) := by
  unfold Flo.internVal memInternVal
  refine (h.insVal ht).bind (fun q _ => Ok.ok ?_) fun q q' _ hR => ?_
  · unfold Dom.bytes Dom.textLen
    cases q.wasInserted <;> simp
  · obtain ⟨h1, h2, h3, own', h4⟩ := hR
    cases hw : q.wasInserted
    · rw [h1, hw, if_neg (by decide)]
      exact SimC.okR ⟨h2, h3, own', by simpa using h4⟩
    · rw [h1, hw, if_pos rfl]
      have hrun := (h4.addValReg ht).sim
      refine SimC.mono (L := fun q => q.2.bytes) ?_ (fun r _ => le_refl _) (fun _ _ _ h => h)
      have := hrun.bind (L2 := fun q : Nat × Dom => q.2.bytes) (f := fun d' => .ok (q.entryIndex, d'))
        (g := fun p => .ok (q'.entryIndex, p.1, p.2)) (R2 := IdR V) (fun r _ => Ok.ok (le_refl _)) fun r b _ hR => by
          obtain ⟨o, hR⟩ := hR
          exact SimC.okR ⟨h2, h3, o, hR⟩
      simpa using this

theorem Rep.property {V : MEnv} {own : Int → Owner} {M : MDom} {a : Arena} {d : Dom} (h : Rep V own 0 M a d) {n : Nat} (hn : n < 65536)
    {k v : MStr} {ks vs : Str} (hk : Tok V k ks) (hv : Tok V v vs) :
    SimC V Dom.bytes (addProperty n ks vs d) (memAddProperty n k v M a) (DomR V) := by
  unfold addProperty memAddProperty
  refine (h.internKey hk).bind (fun r _ => ?_) fun ⟨i, d1⟩ ⟨i', M1, a1⟩ _ hR => ?_
  · refine (internVal_adds _ _).bind fun r2 h2 => Ok.ok ?_
    refine h2.bytes.trans ?_
    unfold Dom.bytes Dom.textLen; simp
  · obtain ⟨e1, h1, own1, hR1⟩ := hR
    dsimp only at e1 h1 hR1 ⊢
    refine (hR1.internVal hv).bind (fun r _ => Ok.ok ?_) fun ⟨j, d2⟩ ⟨j', M2, a2⟩ _ hR => ?_
    · unfold Dom.bytes Dom.textLen; simp
    · obtain ⟨e2, h2, own2, hR2⟩ := hR
      dsimp only at e2 h2 hR2 ⊢
      rw [e1, e2]
      exact (hR2.addProp (r := ⟨n, i, j⟩) hn h1 h2).sim

theorem Rep.boolProperty {V : MEnv} {own : Int → Owner} {M : MDom} {a : Arena} {d : Dom} (h : Rep V own 0 M a d) {n : Nat} (hn : n < 65536)
    {k : MStr} {ks : Str} (hk : Tok V k ks) :
    SimC V Dom.bytes (addBoolProperty n ks d) (memAddBoolProperty n k M a) (DomR V) := by
  unfold addBoolProperty memAddBoolProperty
  refine (h.internBool hk).bind (fun r _ => Ok.ok ?_) fun ⟨i, d1⟩ ⟨i', M1, a1⟩ _ hR => ?_
  · unfold Dom.bytes Dom.textLen; simp
  · obtain ⟨e1, h1, own1, hR1⟩ := hR
    dsimp only at e1 h1 hR1 ⊢
    rw [e1]
    exact (hR1.addBoolProp (r := (n, i)) hn h1).sim

theorem Rep.createNode {V : MEnv} {own : Int → Owner} {M : MDom} {a : Arena} {d : Dom} (h : Rep V own 0 M a d) (t : NodeType) :
    SimC V (fun q => q.2.bytes) (createNode t d) (memCreateNode t M a) (IdR V) := by
  have hln := h.nodes.len
  unfold Flo.createNode memCreateNode
  by_cases hc : d.nodes.length > 65534
  · rw [if_pos hc, if_pos (show M.nodes.len > 65534 by omega)]
    exact SimC.jumps
  · rw [if_neg hc, if_neg (show ¬M.nodes.len > 65534 by omega)]
    have hid : M.nodes.len.toNat = d.nodes.length := by omega
    rw [hid]
    have hrun := (h.addNodes (t := t) (id := d.nodes.length) rfl (by omega)).sim
    have := hrun.bind (L2 := fun q : Nat × Dom => q.2.bytes) (f := fun d' => .ok (d.nodes.length, d'))
      (g := fun p => .ok (d.nodes.length, p.1, p.2)) (R2 := IdR V) (fun r _ => Ok.ok (le_refl _)) fun r b _ hR => by
        obtain ⟨o, hR⟩ := hR
        exact SimC.okR ⟨rfl, (by dsimp only; omega), o, hR⟩
    simpa using this

theorem poke_tag {mem : Int → UInt8} {own : Int → Owner} {p : Int} {n : Nat} {nd : Node} {t : Nat} (ht : t < 65536) (h : NodeAt mem own p n nd) :
    NodeAt (memWrite (p + 8) (leBytes 2 t) mem) own p n { nd with payload := .tag t } := by
  obtain ⟨h1, h2, _⟩ := h
  have hl := leBytes_length 2 t
  refine ⟨?_, ?_, ?_⟩
  · rw [readLE_other (by rw [hl]; push_cast; omega)]; exact h1
  · rw [readLE_other (by rw [hl]; push_cast; omega)]; exact h2
  · have := readLE_write (m := mem) (p := p + 8) (q := p + 8) (pre := []) (post := []) (n := 2) (v := t) (by omega) (by simp)
    rw [List.nil_append, List.append_nil] at this
    exact this

theorem poke_text {mem : Int → UInt8} {own : Int → Owner} {p : Int} {n : Nat} {nd : Node} {r : MStr} {s : Str} (hl : r.len = s.length)
    (hp : 0 ≤ r.ptr) (hp' : r.ptr < 2 ^ 64) (hl' : r.len < 2 ^ 64) (hs : StrAt (memWrite (p + 8) (encStr r) mem) own r.ptr s)
    (h : NodeAt mem own p n nd) : NodeAt (memWrite (p + 8) (encStr r) mem) own p n { nd with payload := .text s } := by
  obtain ⟨h1, h2, _⟩ := h
  have he := encStr_length r
  refine ⟨?_, ?_, ?_⟩
  · rw [readLE_other (by rw [he]; push_cast; omega)]; exact h1
  · rw [readLE_other (by rw [he]; push_cast; omega)]; exact h2
  · have := strIn_write (mem := mem) (own := own) (p := p + 8) (q := p + 8) (pre := []) (post := []) hp hp' hl hl' (by simp)
      (by rw [List.nil_append, List.append_nil]; exact hs)
    rw [List.nil_append, List.append_nil] at this
    exact this

/-- Writing a member of a node. -/
theorem Rep.poke {V : MEnv} {own : Int → Owner} {x x' : Int} {M : MDom} {a : Arena} {d : Dom} (h : Rep V own x M a d) {n : Nat} {nd nd' : Node}
    (hn : d.nodes[n]? = some nd) {e : List UInt8} (hel : 8 + (e.length : Int) ≤ 24)
    (hnew : ∀ p, NodeAt a.mem own p n nd → Fixed own own a.mem (memWrite (p + 8) e a.mem) →
      NodeAt (memWrite (p + 8) e a.mem) own p n nd') (hx : 4 * (nd.textLen : Int) + x ≤ 4 * (nd'.textLen : Int) + x') :
    ∃ a', arrPoke 24 n 8 e M.nodes a = .ok a' ∧ Rep V own x' M a' (d.setNode n nd') := by
  obtain ⟨a', he, hr, hA, hb⟩ := poke_rep (k := ⟨24, 8⟩) nodeAt_movable h.nodes h.top (by decide) (by decide) (by omega) hel hn hnew
  refine ⟨a', he, ?_⟩
  exact {
      pos := h.pos
      lo := h.lo.trans hA.beg
      above := h.above.trans hA.beg
      top := hA.top
      stop := hA.stop.trans h.stop
      max := h.max
      free := hA.freed h.free
      out := hA.out (by simp) h.out
      oth := hA.oth (by simp) h.oth
      nodes := hr
      fc := h.fc.other rowAt_movable hA (by simp) (by simp) (by simp)
      pc := h.pc.other rowAt_movable hA (by simp) (by simp) (by simp)
      nn := h.nn.other rowAt_movable hA (by simp) (by simp) (by simp)
      boolProps := h.boolProps.other rowAt_movable hA (by simp) (by simp) (by simp)
      props := h.props.other propAt_movable hA (by simp) (by simp) (by simp)
      tagReg := h.tagReg.other tagAt_movable hA (by simp) (by simp) (by simp)
      boolReg := h.boolReg.other nameAt_movable hA (by simp) (by simp) (by simp)
      keyReg := h.keyReg.other nameAt_movable hA (by simp) (by simp) (by simp)
      valReg := h.valReg.other nameAt_movable hA (by simp) (by simp) (by simp)
      tagMap := h.tagMap.other hA (fun _ => (by simp)) (by simp)
      boolMap := h.boolMap.other hA (fun _ => (by simp)) (by simp)
      keyMap := h.keyMap.other hA (fun _ => (by simp)) (by simp)
      valMap := h.valMap.other hA (fun _ => (by simp)) (by simp)
      few := by
        have := h.few
        have : (d.setNode n nd').nodes.length = d.nodes.length := by simp [Dom.setNode]
        omega
      led := by
        have h1 := setNode_textLen (y := nd') hn
        have h2 := h.led
        omega }

theorem Rep.setTag {V : MEnv} {own : Int → Owner} {M : MDom} {a : Arena} {d : Dom} (h : Rep V own 0 M a d) {r : MStr} {s : Str} {n : Nat} {nd : Node}
    (hn : d.nodes[n]? = some nd) (htl : nd.textLen = 0) (ht : Tok V r s) (p : Bool) :
    SimC V Dom.bytes (setTag s n p d) (memSetTag r n p M a) (DomR V) := by
  unfold Flo.setTag memSetTag
  refine (h.insTag ht).bind (fun q hq => ?_) fun q q' _ hR => ?_
  · intro d' hd'
    unfold Dom.node at hd'
    dsimp only at hd'
    rw [hn] at hd'
    simp only [Out.bind_ok] at hd'
    cases hd'
    have h1 := setNode_bytes (d := { d with
        tagMap := q.map, tagReg := if q.wasInserted = true then d.tagReg ++ [(s, p)] else d.tagReg }) (n := n) (x := nd)
        (y := { nd with payload := .tag q.entryIndex }) hn
    rw [htl] at h1
    have : (({ nd with payload := .tag q.entryIndex } : Node).textLen : Int) = 0 := rfl
    rw [this] at h1
    have h2 : ({ d with tagMap := q.map } : Dom).bytes ≤
        ({ d with tagMap := q.map, tagReg := if q.wasInserted = true then d.tagReg ++ [(s, p)] else d.tagReg } : Dom).bytes := by
      unfold Dom.bytes Dom.textLen
      cases q.wasInserted <;> simp
    omega
  · obtain ⟨h1, h2, h3, own', h4⟩ := hR
    have key : ∀ (d1 : Dom) (M1 : MDom) (a1 : Arena) (own1 : Int → Owner), Rep V own1 0 M1 a1 d1 → d1.nodes = d.nodes →
        SimC V Dom.bytes (do
          let node ← d1.node n
          .ok (d1.setNode n { node with payload := .tag q.entryIndex })) (do
          let a ← arrPoke 24 n 8 (leBytes 2 q'.entryIndex) M1.nodes a1
          .ok (M1, a)) (DomR V) := by
      intro d1 M1 a1 own1 hr1 hd1
      obtain ⟨a2, he, hr2⟩ := hr1.poke (x' := 0) (nd := nd) (nd' := { nd with payload := .tag q.entryIndex }) (by rw [hd1]; exact hn)
        (e := leBytes 2 q'.entryIndex) (by rw [leBytes_length]; decide) (fun p h _ => by rw [h2]; exact poke_tag h3 h)
        (by rw [htl]; simp)
      rw [he]
      unfold Dom.node
      rw [hd1, hn]
      exact SimC.okR ⟨own1, hr2⟩
    cases hw : q.wasInserted
    · rw [h1, hw]
      simp only [Bool.false_eq_true, if_false, Out.bind_ok]
      exact key _ _ _ _ h4 rfl
    · rw [h1, hw]
      simp only [if_true]
      have hrun := (h4.addTagReg (p := p) ht).sim
      have := hrun.bind (L2 := Dom.bytes) (f := fun d1 => (do
          let node ← d1.node n
          .ok (d1.setNode n { node with payload := .tag q.entryIndex }))) (g := fun b => (do
          let a ← arrPoke 24 n 8 (leBytes 2 q'.entryIndex) b.1.nodes b.2
          .ok (b.1, a))) (R2 := DomR V) (fun d1 e => by
            cases e
            intro d' hd'
            unfold Dom.node at hd'
            dsimp only at hd'
            rw [hn] at hd'
            simp only [Out.bind_ok] at hd'
            cases hd'
            have h1 := setNode_bytes (d := { d with tagMap := q.map, tagReg := d.tagReg ++ [(s, p)] }) (n := n) (x := nd)
                (y := { nd with payload := .tag q.entryIndex }) hn
            rw [htl] at h1
            have : (({ nd with payload := .tag q.entryIndex } : Node).textLen : Int) = 0 := rfl
            rw [this] at h1
            dsimp only at h1 ⊢
            omega) (fun d1 b e hR => by
            cases e
            obtain ⟨o, hR⟩ := hR
            exact key _ _ _ _ hR rfl)
      exact this

/-- The identifiers on the nesting stack agree, the tags are in memory. -/
inductive StackR (V : MEnv) : List (Nat × Str) → List (Nat × MStr) → Prop
  | nil : StackR V [] []
  | cons {i : Nat} {s : Str} {r : MStr} {l : List (Nat × Str)} {l' : List (Nat × MStr)} (hi : i < 65536) (ht : Tok V r s)
    (h : StackR V l l') : StackR V ((i, s) :: l) ((i, r) :: l')

theorem StackR.length {V : MEnv} {l : List (Nat × Str)} {l' : List (Nat × MStr)} (h : StackR V l l') : l'.length = l.length := by
  induction h with
  | nil => rfl
  | cons _ _ _ ih => simp [ih]

theorem Rep.links {V : MEnv} {own : Int → Owner} {M : MDom} {a : Arena} {d : Dom} (h : Rep V own 0 M a d) {new prev : Nat} {l : List (Nat × Str)}
    {l' : List (Nat × MStr)} (hl : StackR V l l') (hn : new < 65536) (hp : prev < 65536) :
    SimC V Dom.bytes (.ok (parserUpdateReferences new prev l d)) (memUpdateReferences new prev l' M a) (DomR V) := by
  unfold parserUpdateReferences memUpdateReferences
  by_cases hc : new > 0 ∧ prev > 0
  · rw [if_pos hc, if_pos hc]
    cases hl with
    | nil => exact (h.addNn (r := (prev, new)) hp hn).sim
    | cons hi ht hl =>
      dsimp only
      rename_i i s r l l'
      have hrun := (h.addPc (r := (i, new)) hi hn).sim
      have := hrun.bind (L2 := Dom.bytes) (f := fun d1 => .ok (if i = prev then { d1 with fc := d1.fc ++ [(i, new)] }
          else { d1 with nn := d1.nn ++ [(prev, new)] })) (g := fun b => if i = prev then pushFc (i, new) b.1 b.2 else pushNn (prev, new) b.1 b.2)
          (R2 := DomR V) (fun d1 _ => Ok.ok (by unfold Dom.bytes Dom.textLen; split <;> simp)) (fun d1 b _ hR => by
            obtain ⟨o, hR⟩ := hR
            by_cases hip : i = prev
            · rw [if_pos hip, if_pos hip]; exact (hR.addFc (r := (i, new)) hi hn).sim
            · rw [if_neg hip, if_neg hip]; exact (hR.addNn (r := (prev, new)) hp hn).sim)
      exact this
  · rw [if_neg hc, if_neg hc]
    exact SimC.okR ⟨own, h⟩

end Flo
