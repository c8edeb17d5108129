import Verif.Proofs.EditMemLink
/-!
# Editing in memory: replacing
-/
namespace Flo
open Spec

variable {V : MEnv} {B T N : Int} {d : Dom} {M : MDom} {a : Arena}

/-! ## The pointer kept while the array moves -/

/-- `q` is the address of row `i` of an array now or before it moved. -/
structure Stale (q : Int) (i : Nat) (s : Arr) (a : Arena) : Prop where
  buf : ∃ b, s.buf = some b ∧ (b + 4 * (i : Int) = q ∨ q + 4 ≤ b)
  below : q + 4 ≤ a.beg
  idx : (i : Int) < s.len
  cap : 0 < s.cap

theorem reserve_stale {q : Int} {i : Nat} {s s' : Arr} {a a' : Arena} (h : Stale q i s a) (e : arrReserve 4 2 false s a = .ok (s', a')) :
    Stale q i s' a' ∧ ∀ x, q ≤ x → x < q + 4 → a'.mem x = a.mem x := by
  obtain ⟨b, hb, hq⟩ := h.buf
  have hbel := h.below
  have hc := h.cap
  unfold arrReserve at e
  split at e
  · unfold arrGrow at e
    rw [hb] at e
    dsimp only at e
    split at e
    · rcases arenaAlloc_cases (size := 4) (align := 1) (count := s.cap) (zero := false) (nof := false) (a := a) (by omega) isAlign_one (by omega) with
        ⟨p, a1, h1, h2⟩ | ⟨_, h1⟩
      · rw [h1] at e
        cases e
        have := h2.above
        have := h2.beg
        exact ⟨⟨⟨b, rfl, hq⟩, by show q + 4 ≤ a1.beg; omega, h.idx, by show 0 < s.cap * 2; omega⟩, fun x _ hx => h2.below x (by omega)⟩
      · rw [h1] at e; cases e
    · rcases arenaAlloc_cases (size := 8) (align := 2) (count := s.cap) (zero := false) (nof := false) (a := a) (by omega) isAlign_2 (by omega) with
        ⟨p, a1, h1, h2⟩ | ⟨_, h1⟩
      · rw [show (2 * 4 : Int) = 8 by rfl, h1] at e
        cases e
        have := h2.above
        have := h2.beg
        refine ⟨⟨⟨p, rfl, Or.inr (by omega)⟩, by show q + 4 ≤ a1.beg; omega, h.idx, by show 0 < s.cap * 2; omega⟩, fun x _ hx => ?_⟩
        show memCopy p b (4 * s.len) a1.mem x = _
        rw [copy_out (by omega)]
        exact h2.below x (by omega)
      · rw [show (2 * 4 : Int) = 8 by rfl, h1] at e; cases e
  · cases e
    exact ⟨h, fun _ _ _ => rfl⟩

theorem push_stale {q : Int} {i : Nat} {r : Row} {M' : MDom} {a' : Arena} (h : Stale q i M.pc a) (e : pushPc r M a = .ok (M', a')) :
    Stale q i M'.pc a' ∧ readLE a'.mem q 2 = readLE a.mem q 2 := by
  unfold pushPc arrPushElem arrPush at e
  cases hr : arrReserve 4 2 false M.pc a with
  | ok v =>
    obtain ⟨s', a1⟩ := v
    rw [hr] at e
    obtain ⟨h1, h2⟩ := reserve_stale h hr
    obtain ⟨b, hb, hq⟩ := h1.buf
    have hi := h1.idx
    have hb' := h1.below
    have hlen : ((encRow r).length : Int) = 4 := by unfold encRow; simp [leBytes_length]
    simp only [Out.bind_ok, hb] at e
    cases e
    refine ⟨⟨⟨b, rfl, hq⟩, h1.below, by show (i : Int) < s'.len + 1; omega, h1.cap⟩, readLE_congr fun j h0 h3 => ?_⟩
    show memWrite (b + 4 * s'.len) (encRow r) a1.mem (q + j) = _
    rw [memWrite_out (by omega)]
    exact h2 _ (by omega) (by omega)
  | longjmp => rw [hr] at e; cases e
  | ub w => rw [hr] at e; cases e
  | hang => rw [hr] at e; cases e

theorem replaceConnect_mem {q : Int} {i parent : Nat} : ∀ (f other : Nat) {M : MDom} {a : Arena}, Stale q i M.pc a → readLE a.mem q 2 = parent →
    memReplaceConnect q f other M a = memConnectLoop parent f other M a
  | 0, _, _, _, _, _ => rfl
  | f + 1, other, M, a, h, hp => by
    simp only [memReplaceConnect, memConnectLoop]
    rw [hp]
    split
    · cases e : pushPc (parent, other) M a with
      | ok v =>
        obtain ⟨M1, a1⟩ := v
        obtain ⟨h1, h2⟩ := push_stale h e
        rw [Out.bind_ok, Out.bind_ok]
        exact replaceConnect_mem f _ h1 (h2.trans hp)
      | longjmp => rfl
      | ub w => rfl
      | hang => rfl
    · rfl

theorem replaceConnect_rows {i : Nat} {r : Row} : ∀ (f other : Nat) {d : Dom}, d.pc[i]? = some r →
    replaceConnectLoop i f other d = connectLoop r.1 f other d
  | 0, _, _, _ => rfl
  | f + 1, other, d, h => by
    simp only [replaceConnectLoop, connectLoop]
    rw [rowAt_of h]
    split
    · exact replaceConnect_rows f _ (d := { d with pc := d.pc ++ [(r.1, other)] }) (by
        show (d.pc ++ _)[i]? = _
        rw [List.getElem?_append_left (List.getElem?_eq_some_iff.1 h).1]; exact h)
    · rfl

theorem EdR.stale (h : EdR V B T N d M a) {i : Nat} {r : Row} (hi : d.pc[i]? = some r) :
    Stale (bufPtr M.pc.buf + 4 * (i : Int)) i M.pc a ∧ readLE a.mem (bufPtr M.pc.buf + 4 * (i : Int)) 2 = r.1 := by
  obtain ⟨own, x, hr, hB⟩ := h
  have hl := hr.pc.len
  have hc := hr.pc.ok.lenCap
  have hlt := (List.getElem?_eq_some_iff.1 hi).1
  have hb : ∃ b, M.pc.buf = some b := by
    cases hb : M.pc.buf with
    | none => have := hr.pc.ok.none hb; omega
    | some b => exact ⟨b, rfl⟩
  obtain ⟨b, hb⟩ := hb
  have hbeg := hr.pc.ok.beg b hb
  dsimp only at hbeg
  have ha := (hr.pc.addr hi).1
  rw [bufPtr_entry] at ha
  exact ⟨⟨⟨b, hb, Or.inl (by rw [hb]; rfl)⟩, by rw [hb]; show b + 4 * (i : Int) + 4 ≤ _; omega, by omega, by omega⟩, ha⟩

/-! ## The references -/

theorem EdR.replaceFirst (h : EdR V B T N d M a) (old : Nat) {new : Nat} (hn : new < 65536) :
    ∃ a', memReplaceFirst (getPreviousNode old d) (parentFirst (getParentNode old d) d) new M a = .ok a' ∧
      EdR V B T N { d with nn := replacePrev old new d, fc := Flo.replaceFirst old new d } M a' := by
  unfold memReplaceFirst replacePrev Flo.replaceFirst
  cases hp : getPreviousNode old d with
  | some v =>
    obtain ⟨r, hr⟩ := findIdx_some hp
    dsimp only
    rw [rowAt_of hr]
    exact h.nn2 hr hn
  | none =>
    dsimp only
    unfold parentFirst
    cases hq : getParentNode old d with
    | none => exact ⟨a, rfl, h⟩
    | some i =>
      dsimp only
      cases hk : getFirstChildNode (rowAt d.pc i).1 d with
      | none => exact ⟨a, rfl, h⟩
      | some k =>
        obtain ⟨r, hr⟩ := findIdx_some hk
        dsimp only
        rw [rowAt_of hr]
        exact h.fc2 hr hn

theorem EdR.replaceParent (h : EdR V B T N d M a) (old : Nat) {new : Nat} (hn : new < 65536) :
    SimC V (fun _ => B + 24 * N + 48) (Flo.replaceParent old new d) (memReplaceParent (getParentNode old d) new M a) (EdP V (B + 24 * N + 48) T N) := by
  have hN := h.nexts
  unfold Flo.replaceParent memReplaceParent
  cases hp : getParentNode old d with
  | none => exact SimC.okR (h.mono (by omega) (le_refl _) (le_refl _))
  | some i =>
    obtain ⟨r, hr⟩ := findIdx_some hp
    obtain ⟨a1, he, h1⟩ := h.pc2 (i := i) hr hn
    dsimp only
    rw [he, Out.bind_ok, rowAt_of hr]
    have hset : (d.pc.set i (r.1, new))[i]? = some (r.1, new) := List.getElem?_set_self (List.getElem?_eq_some_iff.1 hr).1
    obtain ⟨h2, h3⟩ := h1.stale hset
    have hlen : M.nn.len.toNat + 2 = d.nn.length + 2 := by have := h.nnLen; omega
    rw [replaceConnect_rows (r := (r.1, new)) _ _ hset, replaceConnect_mem _ _ h2 h3, hlen, h1.tables]
    have hs : r.1 < 65536 := by have := (h.smallPc i).1; rw [rowAt_of hr] at this; exact this
    exact (EdR.connectLoop hs (d.nn.length + 2) _ (getNext_small h1.smallNn new) h1).mono (fun _ _ => by push_cast; omega)
      fun _ _ _ h => EdR.mono h (by push_cast; omega) (le_refl _) (le_refl _)

theorem connectLoop_nn {parent : Nat} : ∀ (f other : Nat) (d : Dom), Ok (fun d' => d'.nn = d.nn ∧ d'.nodes = d.nodes) (connectLoop parent f other d)
  | 0, _, _ => Ok.hang
  | f + 1, other, d => by
    simp only [connectLoop]
    split
    · exact connectLoop_nn f _ _
    · exact Ok.ok ⟨rfl, rfl⟩

theorem replaceParent_nn (old new : Nat) (d : Dom) : Ok (fun d' => d'.nn = d.nn ∧ d'.nodes = d.nodes) (replaceParent old new d) := by
  unfold replaceParent
  cases hp : getParentNode old d with
  | none => exact Ok.ok ⟨rfl, rfl⟩
  | some i =>
    obtain ⟨r, hr⟩ := findIdx_some hp
    dsimp only
    have hset : (d.pc.set i ((rowAt d.pc i).1, new))[i]? = some ((rowAt d.pc i).1, new) := List.getElem?_set_self (List.getElem?_eq_some_iff.1 hr).1
    rw [replaceConnect_rows (r := ((rowAt d.pc i).1, new)) _ _ hset]
    exact connectLoop_nn _ _ _

theorem EdR.replaceNext (h : EdR V B T N d M a) {next : Option Nat} (hx : ∀ j, next = some j → j < d.nn.length) {last : Nat} (hl : last < 65536) :
    ∃ a', memReplaceNext next last M a = .ok a' ∧ EdR V B T N { d with nn := Flo.replaceNext next last d.nn } M a' := by
  unfold memReplaceNext Flo.replaceNext
  cases next with
  | none => exact ⟨a, rfl, h⟩
  | some j =>
    have := List.getElem?_eq_getElem (hx j rfl)
    dsimp only
    rw [rowAt_of this]
    exact h.nn1 this hl

theorem EdR.replaceRefs (h : EdR V B T N d M a) (old : Nat) {new : Nat} (hn : new < 65536) :
    SimC V (fun _ => B + 24 * N + 48) (replaceUpdateReferences old new d) (memReplaceRefs old new M a) (EdP V (B + 24 * N + 48) T N) := by
  unfold replaceUpdateReferences memReplaceRefs
  refine SimC.node fun nd hnd => ?_
  rw [h.node hnd, Out.bind_ok, h.tables]
  dsimp only
  rw [getLastNext_rows]
  refine SimC.same fun last e => ?_
  have hl := getLastNext_small h.smallNn hn e
  obtain ⟨a1, he, h1⟩ := h.replaceFirst old hn
  show SimC V _ _ (memReplaceFirst (getPreviousNode old d) (parentFirst (getParentNode old d) d) new M a >>= fun a =>
    memReplaceParent (getParentNode old d) new M a >>= fun (M, a) =>
    memReplaceNext (getNextNode old d) last M a >>= fun a =>
    arrPoke 24 old 4 (leBytes 4 NodeType.removed.code) M.nodes a >>= fun a => .ok (M, a)) _
  rw [he, Out.bind_ok]
  refine (h1.replaceParent old hn).then (le_refl _) fun d2 ⟨M2, a2⟩ hd h2 => ?_
  have h2 : EdR V _ _ _ d2 M2 a2 := h2
  obtain ⟨hn2, hd2⟩ := replaceParent_nn _ _ _ d2 hd
  have hx : ∀ j, getNextNode old d = some j → j < d2.nn.length := by
    intro j hj
    obtain ⟨r, hr⟩ := findIdx_some hj
    rw [hn2]
    have := (List.getElem?_eq_some_iff.1 hr).1
    have : (replacePrev old new d).length = d.nn.length := by unfold replacePrev; split <;> simp
    show j < (replacePrev old new d).length
    omega
  obtain ⟨a3, he3, h3⟩ := h2.replaceNext hx hl
  obtain ⟨a4, he4, h4⟩ := h3.typed (n := old) (nd := nd) (by rw [← hnd]; show d2.nodes[old]? = _; rw [hd2]) .removed
  dsimp only
  rw [he3, Out.bind_ok, he4, Out.bind_ok]
  exact SimC.okR h4

end Flo
