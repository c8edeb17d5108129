import Verif.Proofs.DupMemBuild
import Verif.Spec.Worlds
import Verif.Proofs.Kids
/-!
# Several DOMs in one arena
-/
namespace Flo
open Spec

/-! ## What the memory is now -/

/-- Memory one DOM owns. -/
def Mine (o : Owner) : Prop := o ≠ .free ∧ o ≠ .fixed ∧ o ≠ .other

/-- The view of one DOM: nothing else about the past. -/
def nowEnv (lo : Int) (own : Int → Owner) (M : MDom) (a : Arena) (d : Dom) : MEnv :=
  ⟨lo, a.stop, a.mem, fun y => own y = .fixed, fun y => own y = .other, a.beg - M.ledger - 4 * (d.textLen : Int), a.beg⟩

/-- The memory represents the DOM under these owners. -/
def Now (own : Int → Owner) (M : MDom) (a : Arena) (d : Dom) : Prop := ∃ lo, Rep (nowEnv lo own M a d) own 0 M a d

theorem Rep.toNow {V : MEnv} {own : Int → Owner} {x : Int} {M : MDom} {a : Arena} {d : Dom} (h : Rep V own x M a d) : Now own M a d :=
  ⟨V.lo, { h with
    stop := rfl
    max := by show a.stop < _; rw [h.stop]; exact h.max
    above := le_refl _
    out := fun y hy => ⟨hy, rfl⟩
    oth := fun y hy => ⟨hy, rfl⟩
    led := by show a.beg ≤ a.beg - M.ledger - 4 * (d.textLen : Int) + _ + _ + _; omega }⟩

open Classical in
/-- The owners without free memory left behind. -/
noncomputable def settle (a : Arena) (own : Int → Owner) : Int → Owner := fun y =>
  if own y = .free ∧ ¬(a.beg ≤ y ∧ y < a.stop) then .other else own y

theorem settle_free {a : Arena} {own : Int → Owner} {y : Int} (h : settle a own y = .free) : own y = .free ∧ a.beg ≤ y ∧ y < a.stop := by
  unfold settle at h
  split at h
  · cases h
  · next hc =>
    refine ⟨h, ?_⟩
    by_contra hcon
    exact hc ⟨h, hcon⟩

theorem settle_other {a : Arena} {own : Int → Owner} {y : Int} (h : own y ≠ .free) : settle a own y = own y := by
  unfold settle
  rw [if_neg (fun hc => h hc.1)]

theorem settle_mine {a : Arena} {own : Int → Owner} {y : Int} (h : Mine (settle a own y)) : Mine (own y) ∧ settle a own y = own y := by
  unfold settle at h ⊢
  split
  · next hc => rw [if_pos hc] at h; exact absurd rfl h.2.2
  · next hc => rw [if_neg hc] at h; exact ⟨h, rfl⟩

theorem Rep.settle {V : MEnv} {own : Int → Owner} {x : Int} {M : MDom} {a : Arena} {d : Dom} (h : Rep V own x M a d) :
    Rep V (settle a own) x M a d := by
  have hA : Around (fun _ => False) own a (Flo.settle a own) a := by
    refine ⟨le_refl _, h.top, rfl, fun y hy _ => ⟨settle_other hy, rfl⟩, fun y h1 h2 hy => ?_⟩
    unfold Flo.settle
    rw [if_neg (fun hc => hc.2 ⟨h1, h2⟩)]
    exact hy
  exact h.other hA (fun _ hf => False.elim hf) (le_refl _)

/-! ## Duplicates -/

theorem source_of {α : Type} {lo : Int} {own : Int → Owner} {o : Owner} {k : Kind} {E : ElemAt α} {a : Arena} {s : Arr} {l : List α} {V : MEnv}
    (hE : Movable k.size E) (h : ArrRep own o k E lo a s.norm l) (ho : Mine o)
    (hf : ∀ y, a.beg ≤ y → y < a.stop → own y = .free)
    (hk : ∀ y, own y = .fixed → y < a.beg ∨ a.stop ≤ y → V.keep y ∧ V.mem y = a.mem y)
    (hoth : ∀ y, own y ≠ .fixed → y < a.beg ∨ a.stop ≤ y → V.oth y ∧ V.mem y = a.mem y) : Source V k E s l := by
  have hn : l ≠ [] → s.norm = s := by
    intro hl
    have h1 := h.len
    have h2 := List.length_pos_iff.2 hl
    rw [Arr.norm_len] at h1
    unfold Arr.norm
    rw [if_neg (by omega)]
  have hout : ∀ y, own y ≠ .free → y < a.beg ∨ a.stop ≤ y := by
    intro y hy
    by_contra hc
    exact hy (hf y (by omega) (by omega))
  refine ⟨by rw [← h.len, Arr.norm_len], fun hl => ?_, fun b hb i x hx own' mem h1 h2 => ?_⟩
  · have e := hn hl
    have h2 := List.length_pos_iff.2 hl
    have h3 := h.len
    rw [e] at h h3
    cases hb : s.buf with
    | none =>
      have := h.ok.none hb; have := h.ok.lenCap
      omega
    | some b => exact ⟨b, rfl⟩
  · have hi := (List.getElem?_eq_some_iff.1 hx).1
    have e := hn (fun hc => by rw [hc] at hi; simp at hi)
    rw [e] at h
    refine hE.move (h.at_ b hb i x hx) (fun y hy => ?_) fun j j0 j1 => ?_
    · obtain ⟨g1, g2⟩ := hk y hy (hout y (by rw [hy]; decide))
      obtain ⟨g3, g4⟩ := h1 y g1
      exact ⟨g3, g4.trans g2⟩
    · have hms := mul_slot (z := k.size) (t := (i : Int)) (c := s.cap) h.ok.kind.1 (by have := h.ok.lenCap; have := h.len; omega)
      have hm1 : 0 ≤ k.size * (i : Int) := by have := h.ok.kind.1; positivity
      have hy := h.mine b hb (b + k.size * (i : Int) + j) (by omega) (by omega)
      obtain ⟨g1, g2⟩ := hoth _ (by rw [hy]; exact ho.2.1) (hout _ (by rw [hy]; exact ho.1))
      exact (h2 _ g1).trans g2

/-- The bytes of the duplicate. -/
theorem duplicate_runs {own : Int → Owner} {M : MDom} {a : Arena} {d d2 : Dom} (h : Now own M.norm a d) (h0 : 0 < a.beg)
    (ht : d.tagReg ≠ []) (hb : d.boolReg ≠ []) (hk : d.keyReg ≠ []) (hv : d.valReg ≠ []) (hd : duplicateDom d = .ok d2) :
    (memDuplicate M a = .longjmp ∧ a.stop < a.beg + (d2.bytes + 80)) ∨
    ∃ M2 a' own', memDuplicate M a = .ok (M2, a') ∧ Rep { a.env (fun y => own y = .fixed) with base := a.beg + 80 } own' 0 M2.norm a' d2 := by
  obtain ⟨lo, h⟩ := h
  have hK : ∀ y, own y = .fixed → y < a.beg ∨ a.stop ≤ y →
      (own y = .fixed ∧ (y < a.beg ∨ a.stop ≤ y)) ∧ a.mem y = a.mem y := fun y h1 h2 => ⟨⟨h1, h2⟩, rfl⟩
  have hO : ∀ y, own y ≠ .fixed → y < a.beg ∨ a.stop ≤ y →
      (¬own y = .fixed ∧ (y < a.beg ∨ a.stop ≤ y)) ∧ a.mem y = a.mem y := fun y h1 h2 => ⟨⟨h1, h2⟩, rfl⟩
  have hm : ∀ k, Mine (.arr k) := fun k => ⟨by simp, by simp, by simp⟩
  have hs : Sources { a.env (fun y => own y = .fixed) with base := a.beg + 80 } M d := {
    nodes := source_of nodeAt_movable h.nodes (hm _) h.free hK hO
    fc := source_of rowAt_movable h.fc (hm _) h.free hK hO
    pc := source_of rowAt_movable h.pc (hm _) h.free hK hO
    nn := source_of rowAt_movable h.nn (hm _) h.free hK hO
    boolProps := source_of rowAt_movable h.boolProps (hm _) h.free hK hO
    props := source_of propAt_movable h.props (hm _) h.free hK hO
    tagReg := source_of tagAt_movable h.tagReg (hm _) h.free hK hO
    boolReg := source_of nameAt_movable h.boolReg (hm _) h.free hK hO
    keyReg := source_of nameAt_movable h.keyReg (hm _) h.free hK hO
    valReg := source_of nameAt_movable h.valReg (hm _) h.free hK hO
    few := h.few
    val := hv }
  have hgrow : d.tables.bytes ≤ d2.bytes := by
    unfold duplicateDom at hd
    have : Ok (fun d2 : Dom => d.tables.bytes ≤ d2.bytes) (duplicateDom d) := by
      unfold duplicateDom
      refine (rebuild_mono _ _).bind fun tm h1 => (rebuild_mono _ _).bind fun bm h2 => (rebuild_mono _ _).bind fun km h3 =>
        (rebuild_mono _ _).bind fun vm h4 => Ok.ok ?_
      unfold Dom.bytes Dom.textLen Dom.tables; dsimp only; omega
    exact this d2 hd
  unfold memDuplicate memCopyTables
  rcases arenaAlloc_cases (size := 304) (align := 8) (count := 1) (zero := true) (nof := false) (a := a) (by omega) isAlign_8 (by omega) with
    ⟨p, a1, he, hA⟩ | ⟨hlt, he⟩
  · rw [he, Out.bind_ok]
    dsimp only
    have hb0 := rep_blank (fun y => own y = .fixed) h0 h.max hA
    have hb1 : Rep { a.env (fun y => own y = .fixed) with base := a.beg + 80 } (a.owners a1 fun y => own y = .fixed) (-80) .zero a1 .blank :=
      { hb0 with led := by have := hb0.led; show _ ≤ a.beg + 80 + _ + _ + _; change _ ≤ a.beg + _ + _ + _ at this; omega }
    have hc := copyTables_runs hs hb1
    rcases hc with ⟨h1, h2⟩ | ⟨M1, a2, own1, h1, h2⟩
    · left
      refine ⟨?_, ?_⟩
      · have : (copyNodes M .zero a1 >>= fun q => copyFc M q.1 q.2 >>= fun q => copyPc M q.1 q.2 >>= fun q => copyNn M q.1 q.2 >>= fun q =>
          copyBoolProps M q.1 q.2 >>= fun q => copyProps M q.1 q.2 >>= fun q => copyTagReg M q.1 q.2 >>= fun q => copyBoolReg M q.1 q.2 >>=
          fun q => copyKeyReg M q.1 q.2 >>= fun q => copyValReg M q.1 q.2) = .longjmp := h1
        show ((copyNodes M .zero a1 >>= fun q => copyFc M q.1 q.2 >>= fun q => copyPc M q.1 q.2 >>= fun q => copyNn M q.1 q.2 >>= fun q =>
          copyBoolProps M q.1 q.2 >>= fun q => copyProps M q.1 q.2 >>= fun q => copyTagReg M q.1 q.2 >>= fun q => copyBoolReg M q.1 q.2 >>=
          fun q => copyKeyReg M q.1 q.2 >>= fun q => copyValReg M q.1 q.2) >>= _) = _
        rw [this]; rfl
      · change a.stop < a.beg + 80 + (_ + 0) at h2
        omega
    · have hr := (h2.rebuildAll (d := d) ht hb hk hv).ok d2 hd
      have e : ((copyNodes M .zero a1 >>= fun q => copyFc M q.1 q.2 >>= fun q => copyPc M q.1 q.2 >>= fun q => copyNn M q.1 q.2 >>= fun q =>
          copyBoolProps M q.1 q.2 >>= fun q => copyProps M q.1 q.2 >>= fun q => copyTagReg M q.1 q.2 >>= fun q => copyBoolReg M q.1 q.2 >>=
          fun q => copyKeyReg M q.1 q.2 >>= fun q => copyValReg M q.1 q.2) >>= fun q => (do
            let (M, a) ← memRebuildTag q.1 q.2
            let (M, a) ← memRebuildBool M a
            let (M, a) ← memRebuildKey M a
            memRebuildVal M a)) = (do
            let (M, a) ← memRebuildTag M1 a2
            let (M, a) ← memRebuildBool M a
            let (M, a) ← memRebuildKey M a
            memRebuildVal M a) := by rw [h1]; rfl
      rcases hr with ⟨g1, g2⟩ | ⟨⟨M2, a'⟩, g1, own', g2⟩
      · left
        refine ⟨e.trans g1, ?_⟩
        change a.stop < a.beg + 80 + _ at g2
        omega
      · right
        exact ⟨M2, a', own', e.trans g1, g2⟩
  · left
    rw [he, if_neg (by decide)]
    refine ⟨rfl, ?_⟩
    have := Int.emod_lt_of_pos (-a.beg) (show (0 : Int) < 8 by omega)
    have : (312 : Int) ≤ d.tables.bytes := by unfold Dom.bytes; omega
    omega

/-! ## All DOMs of a world -/

/-- Every DOM has its memory; nobody else writes to it. -/
structure Shared (U : Int → Prop) (l : List (MDom × Dom)) (a : Arena) (own : Nat → Int → Owner) : Prop where
  pos : 0 < a.beg
  top : a.beg ≤ a.stop
  max : a.stop < 2 ^ 62
  away : ∀ y, U y → y < a.beg ∨ a.stop ≤ y
  rep : ∀ (i : Nat) M d, l[i]? = some (M, d) → Now (own i) M.norm a d
  user : ∀ i < l.length, ∀ y, U y → own i y = .fixed
  free : ∀ i < l.length, ∀ y, own i y = .free → a.beg ≤ y ∧ y < a.stop
  apart : ∀ i < l.length, ∀ j < l.length, i ≠ j → ∀ y, Mine (own i y) → own j y = .other

open Classical in
/-- The owners after others have taken the memory up to `b`. -/
noncomputable def shut (a : Arena) (b : Int) (own : Int → Owner) : Int → Owner := fun y => if a.beg ≤ y ∧ y < b then .other else own y

theorem shut_mine {a : Arena} {b : Int} {own : Int → Owner} {y : Int} (h : Mine (shut a b own y)) : Mine (own y) ∧ ¬(a.beg ≤ y ∧ y < b) := by
  unfold shut at h
  split at h
  · exact absurd rfl h.2.2
  · next hc => exact ⟨h, hc⟩

theorem shut_out {a : Arena} {b : Int} {own : Int → Owner} {y : Int} (h : ¬(a.beg ≤ y ∧ y < b)) : shut a b own y = own y := if_neg h
theorem shut_in {a : Arena} {b : Int} {own : Int → Owner} {y : Int} (h : a.beg ≤ y ∧ y < b) : shut a b own y = .other := if_pos h

/-- One DOM while others write to free memory and to their own. -/
theorem Now.beside {own : Int → Owner} {M : MDom} {a a' : Arena} {d : Dom} (h : Now own M a d) (h1 : a.beg ≤ a'.beg) (h2 : a'.beg ≤ a'.stop)
    (h3 : a'.stop = a.stop) (hm : ∀ y, own y ≠ .free → own y ≠ .other → a'.mem y = a.mem y) : Now (shut a a'.beg own) M a' d := by
  obtain ⟨lo, h⟩ := h
  have hA : Around (fun o => o = .other) own a (shut a a'.beg own) a' := by
    refine ⟨h1, h2, h3, fun y hy hy2 => ⟨?_, hm y hy hy2⟩, fun y hy hy2 ho => ?_⟩
    · refine shut_out fun hc => hy (h.free y hc.1 (by omega))
    · rw [shut_out (by omega)]; exact ho
  have hr : Rep { nowEnv lo own M a d with oth := fun _ => False } own 0 M a d := { h with oth := fun y hy => False.elim hy }
  have hr2 : Rep { nowEnv lo own M a d with oth := fun _ => False } (shut a a'.beg own) (a'.beg - a.beg) M a' d := {
    pos := hr.pos
    lo := hr.lo.trans hA.beg
    above := hr.above.trans hA.beg
    top := hA.top
    stop := hA.stop.trans hr.stop
    max := hr.max
    free := hA.freed hr.free
    out := hA.out (by simp) hr.out
    oth := fun y hy => False.elim hy
    nodes := hr.nodes.other nodeAt_movable hA (by simp) (by simp) (by simp)
    fc := hr.fc.other rowAt_movable hA (by simp) (by simp) (by simp)
    pc := hr.pc.other rowAt_movable hA (by simp) (by simp) (by simp)
    nn := hr.nn.other rowAt_movable hA (by simp) (by simp) (by simp)
    boolProps := hr.boolProps.other rowAt_movable hA (by simp) (by simp) (by simp)
    props := hr.props.other propAt_movable hA (by simp) (by simp) (by simp)
    tagReg := hr.tagReg.other tagAt_movable hA (by simp) (by simp) (by simp)
    boolReg := hr.boolReg.other nameAt_movable hA (by simp) (by simp) (by simp)
    keyReg := hr.keyReg.other nameAt_movable hA (by simp) (by simp) (by simp)
    valReg := hr.valReg.other nameAt_movable hA (by simp) (by simp) (by simp)
    tagMap := hr.tagMap.other hA (fun _ => (by simp)) (by simp)
    boolMap := hr.boolMap.other hA (fun _ => (by simp)) (by simp)
    keyMap := hr.keyMap.other hA (fun _ => (by simp)) (by simp)
    valMap := hr.valMap.other hA (fun _ => (by simp)) (by simp)
    few := hr.few
    led := by have := hr.led; omega }
  exact hr2.toNow

/-- Only free memory is written. -/
theorem Shared.grow {U : Int → Prop} {l : List (MDom × Dom)} {a a' : Arena} {own : Nat → Int → Owner} (h : Shared U l a own)
    (h1 : a.beg ≤ a'.beg) (h2 : a'.beg ≤ a'.stop) (h3 : a'.stop = a.stop) (hm : SameButFree a a.mem a'.mem) :
    Shared U l a' (fun i => shut a a'.beg (own i)) where
  pos := by have := h.pos; omega
  top := h2
  max := by rw [h3]; exact h.max
  away := fun y hy => by have := h.away y hy; omega
  rep := fun i M d hi => by
    refine (h.rep i M d hi).beside h1 h2 h3 fun y hy _ => hm y ?_
    by_contra hc
    obtain ⟨lo, hr⟩ := h.rep i M d hi
    exact hy (hr.free y (by omega) (by omega))
  user := fun i hi y hy => by
    have := h.away y hy
    rw [shut_out (by omega)]
    exact h.user i hi y hy
  free := fun i hi y hy => by
    unfold shut at hy
    split at hy
    · cases hy
    · have := h.free i hi y hy; omega
  apart := fun i hi j hj hij y hy => by
    obtain ⟨g1, g2⟩ := shut_mine hy
    rw [shut_out g2]
    exact h.apart i hi j hj hij y g1

open Classical in
/-- One more DOM. -/
theorem Shared.add {U : Int → Prop} {l : List (MDom × Dom)} {a a' : Arena} {own : Nat → Int → Owner} (h : Shared U l a own)
    (h1 : a.beg ≤ a'.beg) (h3 : a'.stop = a.stop) (hm : SameButFree a a.mem a'.mem)
    {M : MDom} {d : Dom} {V : MEnv} {x : Int} {o : Int → Owner} (hr : Rep V o x M.norm a' d) (hU : ∀ y, U y → o y = .fixed)
    (hout : ∀ y, y < a.beg ∨ a.stop ≤ y → o y = .fixed ∨ o y = .other)
    (ho : ∀ i < l.length, ∀ y, Mine (own i y) → o y = .other) : ∃ own', Shared U (l ++ [(M, d)]) a' own' := by
  have hg := h.grow h1 hr.top h3 hm
  refine ⟨fun i => if i < l.length then shut a a'.beg (own i) else settle a' o, hg.pos, hg.top, hg.max, hg.away, fun i M1 d1 hi => ?_,
    fun i hi y hy => ?_, fun i hi y hy => ?_, fun i hi j hj hij y hy => ?_⟩
  · by_cases hl : i < l.length
    · rw [List.getElem?_append_left hl] at hi
      try dsimp only
      rw [if_pos hl]
      exact hg.rep i M1 d1 hi
    · rw [List.getElem?_append_right (by omega)] at hi
      have : i - l.length = 0 := by
        have := (List.getElem?_eq_some_iff.1 hi).1
        simp at this; omega
      rw [this] at hi
      cases hi
      try dsimp only
      rw [if_neg hl]
      exact hr.settle.toNow
  · by_cases hl : i < l.length
    · (try dsimp only); rw [if_pos hl]; exact hg.user i hl y hy
    · (try dsimp only); rw [if_neg hl, settle_other (by rw [hU y hy]; decide)]; exact hU y hy
  · by_cases hl : i < l.length
    · (try dsimp only at hy); rw [if_pos hl] at hy; exact hg.free i hl y hy
    · (try dsimp only at hy); rw [if_neg hl] at hy; exact (settle_free hy).2
  · rw [List.length_append] at hi hj
    simp only [List.length_cons, List.length_nil] at hi hj
    try dsimp only at hy ⊢
    by_cases hl : i < l.length
    · rw [if_pos hl] at hy
      by_cases hlj : j < l.length
      · rw [if_pos hlj]
        exact hg.apart i hl j hlj hij y hy
      · rw [if_neg hlj]
        have := ho i hl y (shut_mine hy).1
        rw [settle_other (by rw [this]; decide)]
        exact this
    · rw [if_neg hl] at hy
      by_cases hlj : j < l.length
      · rw [if_pos hlj]
        refine shut_in ?_
        have hmine := (settle_mine hy).1
        constructor
        · by_contra hc
          rcases hout y (by omega) with e | e
          · exact hmine.2.1 e
          · exact hmine.2.2 e
        · by_contra hc
          by_cases hs : y < a.stop
          · exact hmine.1 (hr.free y (by omega) (by omega))
          · rcases hout y (by omega) with e | e
            · exact hmine.2.1 e
            · exact hmine.2.2 e
      · omega

open Classical in
/-- The caller takes memory. -/
theorem Shared.used {U : Int → Prop} {l : List (MDom × Dom)} {a : Arena} {own : Nat → Int → Owner} (h : Shared U l a own) {b : Int} {mem : Int → UInt8}
    (h1 : a.beg ≤ b) (h2 : b ≤ a.stop) (hm : SameButFree a a.mem mem) :
    ∃ own', Shared (fun y => U y ∨ (a.beg ≤ y ∧ y < b)) l { a with beg := b, mem := mem } own' := by
  refine ⟨fun i y => if a.beg ≤ y ∧ y < b then .fixed else own i y, by have := h.pos; show 0 < b; omega, h2, h.max, fun y hy => ?_,
    fun i M d hi => ?_, fun i hi y hy => ?_, fun i hi y hy => ?_, fun i hi j hj hij y hy => ?_⟩
  · show y < b ∨ a.stop ≤ y
    rcases hy with hy | hy
    · have := h.away y hy; omega
    · omega
  · obtain ⟨lo, hr⟩ := h.rep i M d hi
    have hr := hr.rewrite hm
    have hA : Around (fun _ => False) (own i) { a with mem := mem } (fun y => if a.beg ≤ y ∧ y < b then .fixed else own i y)
        { a with beg := b, mem := mem } := by
      refine ⟨h1, h2, rfl, fun y hy _ => ⟨?_, rfl⟩, fun y hy hy2 ho => ?_⟩
      · try dsimp only
        rw [if_neg]
        intro hc
        exact hy (hr.free y hc.1 (by show y < a.stop; omega))
      · try dsimp only
        change b ≤ y at hy
        rw [if_neg (by omega)]
        exact ho
    have hr2 := hr.other (x' := b - a.beg) hA (fun _ hf => False.elim hf) (by show b + 0 ≤ a.beg + (b - a.beg); omega)
    exact hr2.toNow
  · try dsimp only
    split
    · rfl
    · exact h.user i hi y (hy.resolve_right (by assumption))
  · try dsimp only at hy
    split at hy
    · cases hy
    · have := h.free i hi y hy
      show b ≤ y ∧ y < a.stop
      omega
  · try dsimp only at hy ⊢
    split at hy
    · exact absurd rfl hy.2.1
    · next hc =>
      rw [if_neg hc]
      exact h.apart i hi j hj hij y hy

theorem mine_or {o : Owner} (h : o ≠ .free) : Mine o ∨ o = .fixed ∨ o = .other := by
  by_cases h1 : o = .fixed
  · exact Or.inr (Or.inl h1)
  · by_cases h2 : o = .other
    · exact Or.inr (Or.inr h2)
    · exact Or.inl ⟨h, h1, h2⟩

open Classical in
/-- One DOM is edited. -/
theorem Shared.edit {U : Int → Prop} {l : List (MDom × Dom)} {a a' : Arena} {own : Nat → Int → Owner} (h : Shared U l a own) {i : Nat} (hi : i < l.length)
    (h1 : a.beg ≤ a'.beg) (h3 : a'.stop = a.stop) {M : MDom} {d : Dom} {V : MEnv} {x : Int} {o : Int → Owner} (hr : Rep V o x M.norm a' d)
    (hfix : ∀ y, own i y = .fixed → o y = .fixed ∧ a'.mem y = a.mem y) (hoth : ∀ y, own i y = .other → o y = .other ∧ a'.mem y = a.mem y) :
    ∃ own', Shared U (l.set i (M, d)) a' own' := by
  -- what is not free in one view is not free in another
  have hnf : ∀ j < l.length, ∀ k < l.length, ∀ y, own j y ≠ .free → own k y ≠ .free := by
    intro j hj k hk y hy e
    have := h.free k hk y e
    obtain ⟨lo, hrj⟩ := h.rep j _ _ (List.getElem?_eq_getElem hj)
    exact hy (hrj.free y this.1 this.2)
  have hwr : ∀ j < l.length, j ≠ i → ∀ y, own j y ≠ .free → own j y ≠ .other → a'.mem y = a.mem y := by
    intro j hj hji y hy hy2
    rcases mine_or (hnf j hj i hi y hy) with e | e | e
    · exact absurd (h.apart i hi j hj (Ne.symm hji) y e) hy2
    · exact (hfix y e).2
    · exact (hoth y e).2
  have hset : ∀ j : Nat, j < (l.set i (M, d)).length ↔ j < l.length := fun j => by rw [List.length_set]
  have hoi : ∀ y, Mine (settle a' o y) → Mine (own i y) ∨ (a.beg ≤ y ∧ y < a'.beg) := by
    intro y hy
    have hm := (settle_mine hy).1
    by_cases hf : own i y = .free
    · right
      have := h.free i hi y hf
      refine ⟨this.1, ?_⟩
      by_contra hc
      exact hm.1 (hr.free y (by omega) (by omega))
    · rcases mine_or hf with e | e | e
      · exact Or.inl e
      · exact absurd (hfix y e).1 hm.2.1
      · exact absurd (hoth y e).1 hm.2.2
  refine ⟨fun j => if j = i then settle a' o else shut a a'.beg (own j), by have := h.pos; omega, hr.top, by rw [h3]; exact h.max,
    fun y hy => ?_, fun j M1 d1 hj => ?_, fun j hj y hy => ?_, fun j hj y hy => ?_, fun j hj k hk hjk y hy => ?_⟩
  · have := h.away y hy; omega
  · by_cases e : j = i
    · subst e
      rw [List.getElem?_set_self hi] at hj
      cases hj
      try dsimp only
      rw [if_pos rfl]
      exact hr.settle.toNow
    · rw [List.getElem?_set_ne (Ne.symm e)] at hj
      try dsimp only
      rw [if_neg e]
      have hjl := (List.getElem?_eq_some_iff.1 hj).1
      exact (h.rep j M1 d1 hj).beside h1 hr.top h3 (hwr j hjl e)
  · rw [hset] at hj
    try dsimp only
    by_cases e : j = i
    · rw [if_pos e]
      have := (hfix y (h.user i hi y hy)).1
      rw [settle_other (by rw [this]; decide)]; exact this
    · rw [if_neg e]
      have := h.away y hy
      have := hr.top
      rw [shut_out (by omega)]
      exact h.user j hj y hy
  · rw [hset] at hj
    try dsimp only at hy
    by_cases e : j = i
    · rw [if_pos e] at hy; exact (settle_free hy).2
    · rw [if_neg e] at hy
      unfold shut at hy
      split at hy
      · cases hy
      · have := h.free j hj y hy; omega
  · rw [hset] at hj hk
    try dsimp only at hy ⊢
    by_cases e : j = i
    · rw [if_pos e] at hy
      rw [if_neg (by omega)]
      rcases hoi y hy with g | g
      · by_cases hin : a.beg ≤ y ∧ y < a'.beg
        · exact shut_in hin
        · rw [shut_out hin]; exact h.apart i hi k hk (by omega) y g
      · exact shut_in g
    · rw [if_neg e] at hy
      obtain ⟨g1, g2⟩ := shut_mine hy
      by_cases e2 : k = i
      · rw [if_pos e2]
        have := (hoth y (h.apart j hj i hi (by omega) y g1)).1
        rw [settle_other (by rw [this]; decide)]; exact this
      · rw [if_neg e2, shut_out g2]
        exact h.apart j hj k hk hjk y g1

/-! ## The steps -/

theorem ArrRep.normal {α : Type} {lo : Int} {own : Int → Owner} {o : Owner} {k : Kind} {E : ElemAt α} {a : Arena} {s : Arr} {l : List α}
    (h : ArrRep own o k E lo a s l) : s.len = 0 → s = .empty := by
  intro hl
  have h1 := h.cap2
  have h2 := h.ok.lenCap
  obtain ⟨b, n, c⟩ := s
  cases b with
  | none => dsimp only at *; subst hl; have : c = 0 := by omega
            subst this; rfl
  | some b => have := h.ok.cap b rfl; dsimp only at *; omega

theorem Arr.norm_eq {s : Arr} (h : s.len = 0 → s = .empty) : s.norm = s := by
  unfold Arr.norm
  split
  · next hl => exact (h hl).symm
  · rfl

theorem growable_norm {M : MDom} (h : Growable M) : M.norm = M := by
  have e := fun s hs => Arr.norm_eq (h s hs)
  unfold MDom.norm
  rw [e M.nodes (by simp [tablesOf])]
  rw [e M.fc (by simp [tablesOf])]
  rw [e M.pc (by simp [tablesOf])]
  rw [e M.nn (by simp [tablesOf])]
  rw [e M.boolProps (by simp [tablesOf])]
  rw [e M.props (by simp [tablesOf])]
  rw [e M.tagReg (by simp [tablesOf])]
  rw [e M.boolReg (by simp [tablesOf])]
  rw [e M.keyReg (by simp [tablesOf])]
  rw [e M.valReg (by simp [tablesOf])]

theorem Rep.growable {V : MEnv} {own : Int → Owner} {x : Int} {M : MDom} {a : Arena} {d : Dom} (h : Rep V own x M a d) : Growable M := by
  intro s hs
  simp only [tablesOf, List.mem_cons, List.not_mem_nil, or_false] at hs
  rcases hs with rfl | rfl | rfl | rfl | rfl | rfl | rfl | rfl | rfl | rfl
  · exact h.nodes.normal
  · exact h.fc.normal
  · exact h.pc.normal
  · exact h.nn.normal
  · exact h.boolProps.normal
  · exact h.props.normal
  · exact h.tagReg.normal
  · exact h.boolReg.normal
  · exact h.keyReg.normal
  · exact h.valReg.normal

theorem Rep.ledger_nonneg {V : MEnv} {own : Int → Owner} {x : Int} {M : MDom} {a : Arena} {d : Dom} (hr : Rep V own x M a d) : 0 ≤ M.ledger := by
  have h0 : ∀ {α : Type} {o : Owner} {k : Kind} {E : ElemAt α} {s : Arr} {l : List α}, ArrRep own o k E V.lo a s l → 0 ≤ s.cap :=
    fun h => le_trans h.ok.len0 h.ok.lenCap
  have h1 := nook_le (h0 hr.nodes)
  have g1 := h0 hr.nodes
  have h2 := nook_le (h0 hr.fc)
  have g2 := h0 hr.fc
  have h3 := nook_le (h0 hr.pc)
  have g3 := h0 hr.pc
  have h4 := nook_le (h0 hr.nn)
  have g4 := h0 hr.nn
  have h5 := nook_le (h0 hr.boolProps)
  have g5 := h0 hr.boolProps
  have h6 := nook_le (h0 hr.props)
  have g6 := h0 hr.props
  have h7 := nook_le (h0 hr.tagReg)
  have g7 := h0 hr.tagReg
  have h8 := nook_le (h0 hr.boolReg)
  have g8 := h0 hr.boolReg
  have h9 := nook_le (h0 hr.keyReg)
  have g9 := h0 hr.keyReg
  have h10 := nook_le (h0 hr.valReg)
  have g10 := h0 hr.valReg
  unfold MDom.ledger
  omega

theorem reach_regs {d : Dom} (h : Reachable d) : d.tagReg ≠ [] ∧ d.boolReg ≠ [] ∧ d.keyReg ≠ [] ∧ d.valReg ≠ [] := by
  have hn := (reach_domI h).1.names
  refine ⟨?_, ?_, ?_, ?_⟩ <;> intro e
  · have := hn.tag.len; rw [e] at this; simp at this
  · have := hn.bool.len; rw [e] at this; simp at this
  · have := hn.key.len; rw [e] at this; simp at this
  · have := hn.val.len; rw [e] at this; simp at this

theorem duplicate_bytes {d d2 : Dom} (h : Reachable d) (hd : duplicateDom d = .ok d2) : d2.bytes = d.bytes := by
  obtain ⟨tm, bm, km, vm, e, h2⟩ := duplicate_inv (reach_domI h).1
  rw [e] at hd
  cases hd
  have hn := (reach_domI h).1.names
  have t1 := hn.tag.len
  have t2 := hn.bool.len
  have t3 := hn.key.len
  have t4 := hn.val.len
  have s1 := h2.names.tag.len
  have s2 := h2.names.bool.len
  have s3 := h2.names.key.len
  have s4 := h2.names.val.len
  unfold Dom.bytes Dom.textLen
  dsimp only at *
  omega

/-- Parsing in a world. -/
theorem Shared.create {U : Int → Prop} {l : List (MDom × Dom)} {a : Arena} {own : Nat → Int → Owner} (h : Shared U l a own) {src : MStr}
    (h1 : 0 ≤ src.ptr) (h2 : src.ptr + src.len ≤ 2 ^ 62) (h3 : ∀ y, src.ptr ≤ y → y < src.ptr + src.len → U y) {r : Option Dom}
    (hr : createDom (str a.mem src) = .ok r) :
    (memCreateDom src a = .longjmp ∧ a.stop < a.beg + (840 + 320 * (src.len : Int))) ∨
    ∃ q a', memCreateDom src a = .ok (q, a') ∧ a.beg ≤ a'.beg ∧ a'.beg ≤ a'.stop ∧ a'.stop = a.stop ∧ SameButFree a a.mem a'.mem ∧
      a'.beg ≤ a.beg + (840 + 320 * (src.len : Int)) ∧ (q = none ↔ r = none) ∧
      (q = none → ∃ own', Shared U l a' own') ∧ ∀ M d, q = some M → r = some d → ∃ own', Shared U (l ++ [(M, d)]) a' own' := by
  have hl : (str a.mem src).length = src.len := by simp [str, bytesFrom]
  have ht : Tok (a.env U) src (str a.mem src) := by
    refine tok_str (V := a.env U) h1 h2 fun y g1 g2 => ⟨h3 y g1 g2, h.away y (h3 y g1 g2)⟩
  have hsim := (createDom_sim h.pos h.max ht).ok r hr
  rw [hl] at hsim
  rcases hsim with ⟨e, hs⟩ | ⟨⟨q, a'⟩, e, hR⟩
  · exact Or.inl ⟨e, hs⟩
  · right
    refine ⟨q, a', e, ?_⟩
    have key : ∀ (d : Dom) (M : MDom), DomR (a.env U) d (M, a') → d.bytes ≤ 840 + 320 * (src.len : Int) →
        a.beg ≤ a'.beg ∧ a'.beg ≤ a'.stop ∧ a'.stop = a.stop ∧ SameButFree a a.mem a'.mem ∧ a'.beg ≤ a.beg + (840 + 320 * (src.len : Int)) ∧
        ∃ own', Shared U (l ++ [(M, d)]) a' own' := by
      rintro d M ⟨o, hr⟩ hb
      have hout : ∀ y, y < a.beg ∨ a.stop ≤ y → (o y = .fixed ∧ U y ∨ o y = .other ∧ ¬U y) ∧ a'.mem y = a.mem y := by
        intro y hy
        by_cases hu : U y
        · exact ⟨Or.inl ⟨(hr.out y ⟨hu, hy⟩).1, hu⟩, (hr.out y ⟨hu, hy⟩).2⟩
        · exact ⟨Or.inr ⟨(hr.oth y ⟨hu, hy⟩).1, hu⟩, (hr.oth y ⟨hu, hy⟩).2⟩
      have hled := hr.led
      have hby := hr.bytes
      change _ ≤ a.beg + _ + _ + _ at hled
      change a.beg + _ + _ + _ ≤ a.beg + _ + _ at hby
      dsimp only at hled hby
      refine ⟨hr.lo, hr.top, hr.stop, fun y hy => (hout y hy).2, by omega, ?_⟩
      refine h.add hr.lo hr.stop (fun y hy => (hout y hy).2) (o := o) (x := 0) (V := a.env U) (by rw [growable_norm hr.growable]; exact hr)
        (fun y hy => (hr.out y ⟨hy, h.away y hy⟩).1) (fun y hy => ?_) fun i hi y hy => ?_
      · rcases (hout y hy).1 with g | g
        · exact Or.inl g.1
        · exact Or.inr g.1
      · have hfar : y < a.beg ∨ a.stop ≤ y := by
          by_contra hc
          obtain ⟨lo, hri⟩ := h.rep i _ _ (List.getElem?_eq_getElem hi)
          exact hy.1 (hri.free y (by omega) (by omega))
        rcases (hout y hfar).1 with g | g
        · exact absurd (h.user i hi y g.2) hy.2.1
        · exact g.1
    cases hR with
    | null hR hb =>
      obtain ⟨g1, g2, g3, g4, g5, _⟩ := key _ _ hR hb
      exact ⟨g1, g2, g3, g4, g5, by simp, fun _ => ⟨_, h.grow g1 g2 g3 g4⟩, fun M d e => by cases e⟩
    | dom hR hb =>
      obtain ⟨g1, g2, g3, g4, g5, g6⟩ := key _ _ hR hb
      refine ⟨g1, g2, g3, g4, g5, by simp, fun e => (by cases e), fun M d e1 e2 => ?_⟩
      cases e1; cases e2
      exact g6

/-- Duplicating in a world. -/
theorem Shared.dup {U : Int → Prop} {l : List (MDom × Dom)} {a : Arena} {own : Nat → Int → Owner} (h : Shared U l a own) {i : Nat} {M : MDom}
    {d d2 : Dom} (hi : l[i]? = some (M, d)) (hR : Reachable d) (hd : duplicateDom d = .ok d2) :
    (memDuplicate M a = .longjmp ∧ a.stop < a.beg + (d.bytes + 80)) ∨
    ∃ M2 a' own', memDuplicate M a = .ok (M2, a') ∧ a.beg ≤ a'.beg ∧ a'.beg ≤ a'.stop ∧ a'.stop = a.stop ∧ SameButFree a a.mem a'.mem ∧
      a'.beg ≤ a.beg + (d.bytes + 80) ∧ Shared U (l ++ [(M2, d2)]) a' own' := by
  obtain ⟨n1, n2, n3, n4⟩ := reach_regs hR
  have hil := (List.getElem?_eq_some_iff.1 hi).1
  have := duplicate_runs (h.rep i M d hi) h.pos n1 n2 n3 n4 hd
  rw [duplicate_bytes hR hd] at this
  rcases this with g | ⟨M2, a', o, e, hr⟩
  · exact Or.inl g
  · right
    have hout : ∀ y, y < a.beg ∨ a.stop ≤ y → (o y = .fixed ∧ own i y = .fixed ∨ o y = .other ∧ own i y ≠ .fixed) ∧ a'.mem y = a.mem y := by
      intro y hy
      by_cases hu : own i y = .fixed
      · exact ⟨Or.inl ⟨(hr.out y ⟨hu, hy⟩).1, hu⟩, (hr.out y ⟨hu, hy⟩).2⟩
      · exact ⟨Or.inr ⟨(hr.oth y ⟨hu, hy⟩).1, hu⟩, (hr.oth y ⟨hu, hy⟩).2⟩
    have hled := hr.led
    have hby := hr.bytes
    change _ ≤ a.beg + 80 + _ + _ + _ at hled
    change a.beg + 80 + _ + _ + _ ≤ a.beg + 80 + _ + _ at hby
    rw [duplicate_bytes hR hd] at hby
    obtain ⟨own', hs⟩ := h.add hr.lo hr.stop (fun y hy => (hout y hy).2) hr
        (fun y hy => (hr.out y ⟨h.user i hil y hy, h.away y hy⟩).1) (fun y hy => by
          rcases (hout y hy).1 with g | g
          · exact Or.inl g.1
          · exact Or.inr g.1) fun j hj y hy => by
        have hfar : y < a.beg ∨ a.stop ≤ y := by
          by_contra hc
          obtain ⟨lo, hri⟩ := h.rep j _ _ (List.getElem?_eq_getElem hj)
          exact hy.1 (hri.free y (by omega) (by omega))
        rcases (hout y hfar).1 with g | g
        · exfalso
          by_cases hij : j = i
          · subst hij; exact hy.2.1 g.2
          · have := h.apart j hj i hil hij y hy
            rw [this] at g; cases g.2
        · exact g.1
    exact ⟨M2, a', own', e, hr.lo, hr.top, hr.stop, fun y hy => (hout y hy).2, by omega, hs⟩

/-- Editing in a world. -/
theorem Shared.call {U : Int → Prop} {l : List (MDom × Dom)} {a : Arena} {own : Nat → Int → Owner} (h : Shared U l a own) {i : Nat} {M : MDom}
    {d : Dom} (hi : l[i]? = some (M, d)) (hG : Growable M) {op : MOp} (ho : op.Given U) {junk : Nat → Out Bool} (hj : Reads junk) :
    (∀ v d', callOp junk (op.read a.mem) d = .ok (v, d') →
      (memCall junk op M a = .longjmp ∧ a.stop < a.beg + (3 * domBytes d + 1000 * op.size + 1000)) ∨
      ∃ M' a' own', memCall junk op M a = .ok (v, M', a') ∧ a.beg ≤ a'.beg ∧ a'.beg ≤ a'.stop ∧ a'.stop = a.stop ∧ (∀ y, U y → a'.mem y = a.mem y) ∧
        a'.beg ≤ a.beg + (3 * domBytes d + 1000 * op.size + 1000) ∧ Growable M' ∧ Shared U (l.set i (M', d')) a' own') ∧
    (callOp junk (op.read a.mem) d = .longjmp → memCall junk op M a = .longjmp) := by
  have hil := (List.getElem?_eq_some_iff.1 hi).1
  obtain ⟨lo, hr⟩ := h.rep i M d hi
  rw [growable_norm hG] at hr
  rw [domBytes_eq]
  have hU : ∀ y, U y → (nowEnv lo (own i) M a d).keep y := fun y hy => h.user i hil y hy
  have hsim : SimC (nowEnv lo (own i) M a d) (fun _ => 3 * d.bytes + 1000 * op.size + 1000) (callOp junk (op.read a.mem) d) (memCall junk op M a)
      (EdV (nowEnv lo (own i) M a d) (3 * d.bytes + 1000 * op.size + 1000)) := call_sim hr (ho.mono hU) hj
  have hled := hr.ledger_nonneg
  have hbase : (nowEnv lo (own i) M a d).base ≤ a.beg := by
    show a.beg - M.ledger - 4 * (d.textLen : Int) ≤ a.beg
    omega
  refine ⟨fun v d' e => ?_, hsim.jump⟩
  rcases hsim.ok _ e with ⟨h1, h2⟩ | ⟨⟨v', M', a'⟩, h1, h2, T, N, own', x, h3, h4, h5⟩
  · left
    refine ⟨h1, ?_⟩
    change a.stop < _ + _ at h2
    omega
  · right
    dsimp only at h2 h3 h4
    subst h2
    have hl := h3.led
    have hy := h3.bytes
    have hbeg : a.beg ≤ a'.beg := h3.above
    have hstop : a'.stop = a.stop := h3.stop
    obtain ⟨own2, hs⟩ := h.edit hil hbeg hstop (x := x) (o := own') (V := nowEnv lo (own i) M a d) (M := M') (d := d')
      (by rw [growable_norm h3.growable]; exact h3) (fun y hy => h3.out y hy) (fun y hy => h3.oth y hy)
    exact ⟨M', a', own2, h1, hbeg, h3.top, hstop, fun y hy => (h3.out y (hU y hy)).2, by omega, h3.growable, hs⟩

/-- The invariant of all worlds. -/
theorem Spec.World.shared {U : Int → Prop} {l : List (MDom × Dom)} {a : Arena} (h : World U l a) :
    (∃ own, Shared U l a own) ∧ ∀ r ∈ l, Reachable r.2 := by
  induction h with
  | start ha h0 =>
    exact ⟨⟨fun _ _ => .free, h0, ha.2.1, ha.2.2, fun y hy => hy, fun i M d hi => by simp at hi, fun i hi => by simp at hi,
      fun i hi => by simp at hi, fun i hi => by simp at hi⟩, by simp⟩
  | used _ h1 h2 hm ih =>
    obtain ⟨⟨own, ih⟩, hR⟩ := ih
    exact ⟨ih.used h1 h2 hm, hR⟩
  | created _ h1 h2 h3 hd hm ih =>
    obtain ⟨⟨own, ih⟩, hR⟩ := ih
    rcases ih.create h1 h2 h3 hd with ⟨e, _⟩ | ⟨q, a', e, _, _, _, _, _, _, _, hs⟩
    · rw [e] at hm; cases hm
    · rw [e] at hm
      cases hm
      refine ⟨hs _ _ rfl rfl, fun r hr => ?_⟩
      rcases List.mem_append.1 hr with hr | hr
      · exact hR r hr
      · rw [List.mem_singleton] at hr
        subst hr
        exact .parsed hd
  | failed _ h1 h2 h3 hd hm ih =>
    obtain ⟨⟨own, ih⟩, hR⟩ := ih
    rcases ih.create h1 h2 h3 hd with ⟨e, _⟩ | ⟨q, a', e, _, _, _, _, _, _, hs, _⟩
    · rw [e] at hm; cases hm
    · rw [e] at hm
      cases hm
      exact ⟨hs rfl, hR⟩
  | duplicated _ hi hd hm ih =>
    obtain ⟨⟨own, ih⟩, hR⟩ := ih
    have hRd := hR _ (List.mem_of_getElem? hi)
    rcases ih.dup hi hRd hd with ⟨e, _⟩ | ⟨M2, a', own', e, _, _, _, _, _, hs⟩
    · rw [e] at hm; cases hm
    · rw [e] at hm
      cases hm
      refine ⟨⟨own', hs⟩, fun r hr => ?_⟩
      rcases List.mem_append.1 hr with hr | hr
      · exact hR r hr
      · rw [List.mem_singleton] at hr
        subst hr
        exact .duplicated hRd hd
  | edited _ hi hG hj ho ha e e' ih =>
    obtain ⟨⟨own, ih⟩, hR⟩ := ih
    have hRd := hR _ (List.mem_of_getElem? hi)
    rcases (ih.call hi hG ho hj).1 _ _ e with ⟨h1, _⟩ | ⟨M', a', own', h1, _, _, _, _, _, _, hs⟩
    · rw [h1] at e'; cases e'
    · rw [h1] at e'
      cases e'
      refine ⟨⟨own', hs⟩, fun r hr => ?_⟩
      rcases List.mem_or_eq_of_mem_set hr with hr | hr
      · exact hR r hr
      · subst hr
        exact .edited hj hRd ha (by rw [runOp_call, e]; rfl)

end Flo
