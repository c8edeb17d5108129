import Verif.Proofs.DupMemAll
/-!
# Duplicating a DOM in memory: the maps, and the whole
-/
namespace Flo
open Spec

theorem rebuild_mono : ∀ (l : List Str) (m : AutoMap), Ok (fun m' => m.identity ≤ m'.identity) (rebuildMap l m)
  | [], m => Ok.ok (le_refl _)
  | s :: ss, m => by
    unfold rebuildMap
    exact (autoInsert_mono m s).bind fun r hr => (rebuild_mono ss r.map).mono fun m' h => hr.trans h

theorem StrIn.load {mem : Int → UInt8} {own : Int → Owner} {p : Int} {s : Str} (h : StrIn mem own p s) :
    (loadStr mem p).len = s.length ∧ 0 ≤ (loadStr mem p).ptr ∧ ((loadStr mem p).ptr < 2 ^ 64 ∧ (loadStr mem p).len < 2 ^ 64) ∧
      StrAt mem own (loadStr mem p).ptr s := by
  have h1 := readLE_lt mem 8 p
  have h2 := readLE_lt mem 8 (p + 8)
  refine ⟨h.1, ?_, ⟨?_, ?_⟩, h.2⟩
  · show (0 : Int) ≤ ((readLE mem p 8 : Nat) : Int); omega
  · show ((readLE mem p 8 : Nat) : Int) < 2 ^ 64
    have : readLE mem p 8 < 2 ^ 64 := by norm_num at h1 ⊢; exact h1
    exact_mod_cast this
  · show readLE mem (p + 8) 8 < 2 ^ 64
    norm_num at h2 ⊢; exact h2

theorem memRebuild_norm (size : Int) (s : Arr) (m : MMap) (a : Arena) :
    memRebuild size s (s.len.toNat - 1) 1 m a = memRebuild size s.norm (s.norm.len.toNat - 1) 1 m a := by
  rw [Arr.norm_len]
  unfold Arr.norm
  split
  · next h => rw [h]; rfl
  · rfl

theorem Rep.loopTag {V : MEnv} : ∀ (n i : Nat) {own : Int → Owner} {M : MDom} {a : Arena} {d : Dom}, Rep V own 0 M a d →
    i + n = d.tagReg.length →
    SimC V (fun m => Dom.bytes { d with tagMap := m }) (rebuildMap ((d.tagReg.drop i).map (·.1)) d.tagMap) (memRebuild 24 M.tagReg n i M.tagMap a)
      (fun m q => ∃ own', Rep V own' 0 { M with tagMap := q.1 } q.2 { d with tagMap := m }) := by
  intro n
  induction n with
  | zero =>
    intro i own M a d h hi
    rw [List.drop_eq_nil_of_le (by omega)]
    exact SimC.okR ⟨own, h⟩
  | succ n ih =>
    intro i own M a d h hi
    have hlt : i < d.tagReg.length := by omega
    rw [List.drop_eq_getElem_cons hlt]
    have hl := h.tagReg.len
    cases hb : M.tagReg.buf with
    | none =>
      have := h.tagReg.ok.none hb
      have := h.tagReg.ok.lenCap
      omega
    | some b =>
      have hat := h.tagReg.at_ b hb i _ (List.getElem?_eq_getElem hlt)
      obtain ⟨e1, e2, e3, e4⟩ := StrIn.load hat.1
      show SimC V _ (rebuildMap (_ :: _) d.tagMap) _ _
      unfold rebuildMap
      rw [memRebuild, hb]
      refine (h.insTagAt e1 e2 e3 e4).bind (fun r _ => (rebuild_mono _ _).mono fun m' hm => ?_) fun r r' _ hR => ?_
      · unfold Dom.bytes Dom.textLen
        dsimp only
        omega
      · obtain ⟨_, _, _, own', h'⟩ := hR
        exact ih (i + 1) h' (by show i + 1 + n = d.tagReg.length; omega)

theorem Rep.rebuildTag {V : MEnv} {own : Int → Owner} {M : MDom} {a : Arena} {d : Dom} (h : Rep V own 0 M.norm a d) (hne : d.tagReg ≠ []) :
    SimC V (fun m => Dom.bytes { d with tagMap := m }) (rebuildMap ((d.tagReg.drop 1).map (·.1)) d.tagMap) (memRebuildTag M a)
      (fun m q => ∃ own', Rep V own' 0 q.1.norm q.2 { d with tagMap := m }) := by
  have hl : M.tagReg.norm.len = d.tagReg.length := h.tagReg.len
  have hpos := List.length_pos_iff.2 hne
  have h1 := h.loopTag (M.tagReg.norm.len.toNat - 1) 1 (by omega)
  unfold memRebuildTag
  rw [memRebuild_norm]
  constructor
  · intro m hm
    rcases h1.ok m hm with ⟨e, hs⟩ | ⟨q, e, own', hr⟩
    · left
      have e' : memRebuild 24 M.tagReg.norm (M.tagReg.norm.len.toNat - 1) 1 M.tagMap a = .longjmp := e
      rw [e']; exact ⟨rfl, hs⟩
    · right
      have e' : memRebuild 24 M.tagReg.norm (M.tagReg.norm.len.toNat - 1) 1 M.tagMap a = .ok q := e
      rw [e']
      exact ⟨_, rfl, own', hr⟩
  · intro hm
    have e' : memRebuild 24 M.tagReg.norm (M.tagReg.norm.len.toNat - 1) 1 M.tagMap a = .longjmp := h1.jump hm
    rw [e']; rfl

theorem Rep.loopBool {V : MEnv} : ∀ (n i : Nat) {own : Int → Owner} {M : MDom} {a : Arena} {d : Dom}, Rep V own 0 M a d →
    i + n = d.boolReg.length →
    SimC V (fun m => Dom.bytes { d with boolMap := m }) (rebuildMap (d.boolReg.drop i) d.boolMap) (memRebuild 16 M.boolReg n i M.boolMap a)
      (fun m q => ∃ own', Rep V own' 0 { M with boolMap := q.1 } q.2 { d with boolMap := m }) := by
  intro n
  induction n with
  | zero =>
    intro i own M a d h hi
    rw [List.drop_eq_nil_of_le (by omega)]
    exact SimC.okR ⟨own, h⟩
  | succ n ih =>
    intro i own M a d h hi
    have hlt : i < d.boolReg.length := by omega
    rw [List.drop_eq_getElem_cons hlt]
    have hl := h.boolReg.len
    cases hb : M.boolReg.buf with
    | none =>
      have := h.boolReg.ok.none hb
      have := h.boolReg.ok.lenCap
      omega
    | some b =>
      have hat := h.boolReg.at_ b hb i _ (List.getElem?_eq_getElem hlt)
      obtain ⟨e1, e2, e3, e4⟩ := StrIn.load hat
      show SimC V _ (rebuildMap (_ :: _) d.boolMap) _ _
      unfold rebuildMap
      rw [memRebuild, hb]
      refine (h.insBoolAt e1 e2 e3 e4).bind (fun r _ => (rebuild_mono _ _).mono fun m' hm => ?_) fun r r' _ hR => ?_
      · unfold Dom.bytes Dom.textLen
        dsimp only
        omega
      · obtain ⟨_, _, _, own', h'⟩ := hR
        exact ih (i + 1) h' (by show i + 1 + n = d.boolReg.length; omega)

theorem Rep.rebuildBool {V : MEnv} {own : Int → Owner} {M : MDom} {a : Arena} {d : Dom} (h : Rep V own 0 M.norm a d) (hne : d.boolReg ≠ []) :
    SimC V (fun m => Dom.bytes { d with boolMap := m }) (rebuildMap (d.boolReg.drop 1) d.boolMap) (memRebuildBool M a)
      (fun m q => ∃ own', Rep V own' 0 q.1.norm q.2 { d with boolMap := m }) := by
  have hl : M.boolReg.norm.len = d.boolReg.length := h.boolReg.len
  have hpos := List.length_pos_iff.2 hne
  have h1 := h.loopBool (M.boolReg.norm.len.toNat - 1) 1 (by omega)
  unfold memRebuildBool
  rw [memRebuild_norm]
  constructor
  · intro m hm
    rcases h1.ok m hm with ⟨e, hs⟩ | ⟨q, e, own', hr⟩
    · left
      have e' : memRebuild 16 M.boolReg.norm (M.boolReg.norm.len.toNat - 1) 1 M.boolMap a = .longjmp := e
      rw [e']; exact ⟨rfl, hs⟩
    · right
      have e' : memRebuild 16 M.boolReg.norm (M.boolReg.norm.len.toNat - 1) 1 M.boolMap a = .ok q := e
      rw [e']
      exact ⟨_, rfl, own', hr⟩
  · intro hm
    have e' : memRebuild 16 M.boolReg.norm (M.boolReg.norm.len.toNat - 1) 1 M.boolMap a = .longjmp := h1.jump hm
    rw [e']; rfl

theorem Rep.loopKey {V : MEnv} : ∀ (n i : Nat) {own : Int → Owner} {M : MDom} {a : Arena} {d : Dom}, Rep V own 0 M a d →
    i + n = d.keyReg.length →
    SimC V (fun m => Dom.bytes { d with keyMap := m }) (rebuildMap (d.keyReg.drop i) d.keyMap) (memRebuild 16 M.keyReg n i M.keyMap a)
      (fun m q => ∃ own', Rep V own' 0 { M with keyMap := q.1 } q.2 { d with keyMap := m }) := by
  intro n
  induction n with
  | zero =>
    intro i own M a d h hi
    rw [List.drop_eq_nil_of_le (by omega)]
    exact SimC.okR ⟨own, h⟩
  | succ n ih =>
    intro i own M a d h hi
    have hlt : i < d.keyReg.length := by omega
    rw [List.drop_eq_getElem_cons hlt]
    have hl := h.keyReg.len
    cases hb : M.keyReg.buf with
    | none =>
      have := h.keyReg.ok.none hb
      have := h.keyReg.ok.lenCap
      omega
    | some b =>
      have hat := h.keyReg.at_ b hb i _ (List.getElem?_eq_getElem hlt)
      obtain ⟨e1, e2, e3, e4⟩ := StrIn.load hat
      show SimC V _ (rebuildMap (_ :: _) d.keyMap) _ _
      unfold rebuildMap
      rw [memRebuild, hb]
      refine (h.insKeyAt e1 e2 e3 e4).bind (fun r _ => (rebuild_mono _ _).mono fun m' hm => ?_) fun r r' _ hR => ?_
      · unfold Dom.bytes Dom.textLen
        dsimp only
        omega
      · obtain ⟨_, _, _, own', h'⟩ := hR
        exact ih (i + 1) h' (by show i + 1 + n = d.keyReg.length; omega)

theorem Rep.rebuildKey {V : MEnv} {own : Int → Owner} {M : MDom} {a : Arena} {d : Dom} (h : Rep V own 0 M.norm a d) (hne : d.keyReg ≠ []) :
    SimC V (fun m => Dom.bytes { d with keyMap := m }) (rebuildMap (d.keyReg.drop 1) d.keyMap) (memRebuildKey M a)
      (fun m q => ∃ own', Rep V own' 0 q.1.norm q.2 { d with keyMap := m }) := by
  have hl : M.keyReg.norm.len = d.keyReg.length := h.keyReg.len
  have hpos := List.length_pos_iff.2 hne
  have h1 := h.loopKey (M.keyReg.norm.len.toNat - 1) 1 (by omega)
  unfold memRebuildKey
  rw [memRebuild_norm]
  constructor
  · intro m hm
    rcases h1.ok m hm with ⟨e, hs⟩ | ⟨q, e, own', hr⟩
    · left
      have e' : memRebuild 16 M.keyReg.norm (M.keyReg.norm.len.toNat - 1) 1 M.keyMap a = .longjmp := e
      rw [e']; exact ⟨rfl, hs⟩
    · right
      have e' : memRebuild 16 M.keyReg.norm (M.keyReg.norm.len.toNat - 1) 1 M.keyMap a = .ok q := e
      rw [e']
      exact ⟨_, rfl, own', hr⟩
  · intro hm
    have e' : memRebuild 16 M.keyReg.norm (M.keyReg.norm.len.toNat - 1) 1 M.keyMap a = .longjmp := h1.jump hm
    rw [e']; rfl

theorem Rep.loopVal {V : MEnv} : ∀ (n i : Nat) {own : Int → Owner} {M : MDom} {a : Arena} {d : Dom}, Rep V own 0 M a d →
    i + n = d.valReg.length →
    SimC V (fun m => Dom.bytes { d with valMap := m }) (rebuildMap (d.valReg.drop i) d.valMap) (memRebuild 16 M.valReg n i M.valMap a)
      (fun m q => ∃ own', Rep V own' 0 { M with valMap := q.1 } q.2 { d with valMap := m }) := by
  intro n
  induction n with
  | zero =>
    intro i own M a d h hi
    rw [List.drop_eq_nil_of_le (by omega)]
    exact SimC.okR ⟨own, h⟩
  | succ n ih =>
    intro i own M a d h hi
    have hlt : i < d.valReg.length := by omega
    rw [List.drop_eq_getElem_cons hlt]
    have hl := h.valReg.len
    cases hb : M.valReg.buf with
    | none =>
      have := h.valReg.ok.none hb
      have := h.valReg.ok.lenCap
      omega
    | some b =>
      have hat := h.valReg.at_ b hb i _ (List.getElem?_eq_getElem hlt)
      obtain ⟨e1, e2, e3, e4⟩ := StrIn.load hat
      show SimC V _ (rebuildMap (_ :: _) d.valMap) _ _
      unfold rebuildMap
      rw [memRebuild, hb]
      refine (h.insValAt e1 e2 e3 e4).bind (fun r _ => (rebuild_mono _ _).mono fun m' hm => ?_) fun r r' _ hR => ?_
      · unfold Dom.bytes Dom.textLen
        dsimp only
        omega
      · obtain ⟨_, _, _, own', h'⟩ := hR
        exact ih (i + 1) h' (by show i + 1 + n = d.valReg.length; omega)

theorem Rep.rebuildVal {V : MEnv} {own : Int → Owner} {M : MDom} {a : Arena} {d : Dom} (h : Rep V own 0 M.norm a d) (hne : d.valReg ≠ []) :
    SimC V (fun m => Dom.bytes { d with valMap := m }) (rebuildMap (d.valReg.drop 1) d.valMap) (memRebuildVal M a)
      (fun m q => ∃ own', Rep V own' 0 q.1.norm q.2 { d with valMap := m }) := by
  have hl : M.valReg.norm.len = d.valReg.length := h.valReg.len
  have hpos := List.length_pos_iff.2 hne
  have h1 := h.loopVal (M.valReg.norm.len.toNat - 1) 1 (by omega)
  unfold memRebuildVal
  rw [memRebuild_norm]
  constructor
  · intro m hm
    rcases h1.ok m hm with ⟨e, hs⟩ | ⟨q, e, own', hr⟩
    · left
      have e' : memRebuild 16 M.valReg.norm (M.valReg.norm.len.toNat - 1) 1 M.valMap a = .longjmp := e
      rw [e']; exact ⟨rfl, hs⟩
    · right
      have e' : memRebuild 16 M.valReg.norm (M.valReg.norm.len.toNat - 1) 1 M.valMap a = .ok q := e
      rw [e']
      exact ⟨_, rfl, own', hr⟩
  · intro hm
    have e' : memRebuild 16 M.valReg.norm (M.valReg.norm.len.toNat - 1) 1 M.valMap a = .longjmp := h1.jump hm
    rw [e']; rfl

/-- The maps of a duplicate. -/
theorem Rep.rebuildAll {V : MEnv} {own : Int → Owner} {M : MDom} {a : Arena} {d : Dom} (h : Rep V own 0 M.norm a d.tables)
    (ht : d.tagReg ≠ []) (hb : d.boolReg ≠ []) (hk : d.keyReg ≠ []) (hv : d.valReg ≠ []) :
    SimC V Dom.bytes (duplicateDom d) (do
      let (M, a) ← memRebuildTag M a
      let (M, a) ← memRebuildBool M a
      let (M, a) ← memRebuildKey M a
      memRebuildVal M a) (fun d2 q => ∃ own', Rep V own' 0 q.1.norm q.2 d2) := by
  unfold duplicateDom
  refine (h.rebuildTag ht).bind (fun r _ => (rebuild_mono _ _).bind fun bm h1 => (rebuild_mono _ _).bind fun km h2 =>
    (rebuild_mono _ _).bind fun vm h3 => Ok.ok ?_) fun tm q1 _ hR1 => ?_
  · unfold Dom.bytes Dom.textLen Dom.tables; dsimp only; omega
  obtain ⟨own1, h1⟩ := hR1
  refine (h1.rebuildBool hb).bind (fun bm _ => (rebuild_mono _ _).bind fun km h2 =>
    (rebuild_mono _ _).bind fun vm h3 => Ok.ok ?_) fun bm q2 _ hR2 => ?_
  · unfold Dom.bytes Dom.textLen Dom.tables; dsimp only; omega
  obtain ⟨own2, h2⟩ := hR2
  refine (h2.rebuildKey hk).bind (fun km _ => (rebuild_mono _ _).bind fun vm h3 => Ok.ok ?_) fun km q3 _ hR3 => ?_
  · unfold Dom.bytes Dom.textLen Dom.tables; dsimp only; omega
  obtain ⟨own3, h3⟩ := hR3
  have h4 := h3.rebuildVal hv
  constructor
  · intro d2 e
    cases hvm : rebuildMap (d.valReg.drop 1) .empty with
    | ok vm =>
      rw [hvm] at e
      cases e
      exact h4.ok vm hvm
    | longjmp => rw [hvm] at e; cases e
    | ub w => rw [hvm] at e; cases e
    | hang => rw [hvm] at e; cases e
  · intro e
    cases hvm : rebuildMap (d.valReg.drop 1) .empty with
    | ok vm => rw [hvm] at e; cases e
    | longjmp => exact h4.jump hvm
    | ub w => rw [hvm] at e; cases e
    | hang => rw [hvm] at e; cases e

end Flo
