import Verif.Spec.SessionRoom
import Verif.Proofs.Growth
import Verif.Props.PageRefuse
/-!
# An arena that is large enough for a whole session (C107)
-/
namespace Flo
open Spec

theorem str_length (mem : Int → UInt8) (r : MStr) : (str mem r).length = r.len := by simp [str, bytesFrom]

/-- The strings a call reads have the lengths it was given. -/
theorem read_weight (mem : Int → UInt8) (op : MOp) : ((op.read mem).weight : Int) = op.size := by
  unfold MOp.size
  have hdoc : ∀ r : MDocNode, (str mem r.tag).length + 1 + (((r.boolProps.map (str mem)).map fun b => b.length + 1).sum +
      (((r.props.map fun p => (str mem p.1, str mem p.2)).map fun p => p.1.length + 1).sum +
        ((r.props.map fun p => (str mem p.1, str mem p.2)).map fun p => p.2.length + 1).sum)) = ((docStrings r).map fun s => s.len + 1).sum := by
    intro r
    simp [docStrings, str_length, Function.comp_def]
  cases op
  case appendDoc p r => exact congrArg Nat.cast (hdoc r)
  case prependDoc p r => exact congrArg Nat.cast (hdoc r)
  case replaceDoc p r => exact congrArg Nat.cast (hdoc r)
  all_goals simp only [MOp.read, Op.weight, MOp.strings, List.map_cons, List.map_nil, List.sum_cons, List.sum_nil, str_length] <;> rfl

theorem cost_le_weight (op : Op) : op.cost ≤ op.weight := by
  have hdoc : ∀ doc : DocNode, docCost doc ≤
      doc.tag.length + 1 + ((doc.boolProps.map fun b => b.length + 1).sum + ((doc.props.map fun p => p.1.length + 1).sum + (doc.props.map fun p => p.2.length + 1).sum)) := by
    intro doc
    have := length_le_sum doc.boolProps List.length
    have := length_le_sum doc.props fun p => p.1.length
    unfold docCost
    omega
  cases op with
  | attr op => cases op <;> simp only [Op.cost, attrCost, Op.weight] <;> omega
  | appendDoc p doc => exact hdoc doc
  | prependDoc p doc => exact hdoc doc
  | replaceDoc p doc => exact hdoc doc
  | _ => simp only [Op.cost, Op.weight]; omega

theorem size_nonneg (op : MOp) : 0 ≤ op.size := by unfold MOp.size; omega

theorem sizes_cons (o : MOp × (Nat → Bool)) (ops : List (MOp × (Nat → Bool))) : sizes (o :: ops) = o.1.size + sizes ops := by
  simp [sizes]

theorem sizes_nonneg (ops : List (MOp × (Nat → Bool))) : 0 ≤ sizes ops := by
  induction ops with
  | nil => simp [sizes]
  | cons o ops ih => rw [sizes_cons]; have := size_nonneg o.1; omega

theorem cost_le_sizes (mem : Int → UInt8) (ops : List (MOp × (Nat → Bool))) :
    ((((readAll mem ops).map fun o => o.1.cost).sum : Nat) : Int) ≤ sizes ops := by
  induction ops with
  | nil => simp [readAll, sizes]
  | cons o ops ih =>
    rw [sizes_cons]
    have : readAll mem (o :: ops) = (o.1.read mem, o.2) :: readAll mem ops := rfl
    rw [this, List.map_cons, List.sum_cons]
    have h1 := read_weight mem o.1
    have h2 := cost_le_weight (o.1.read mem)
    push_cast
    omega

/-- One call from the room for all of them. -/
theorem callsRoom_step {b b' X s S : Int} {N : Nat} (hb : b' ≤ b + (24 * X + 400) + 400 * s) (h0 : 0 ≤ (N + 1 : Int) * (24 * X + 400)) (hS : 0 ≤ s + S) :
    3 * b + 1000 * s + 1000 + callsRoom b' X N S ≤ callsRoom b X (N + 1) (s + S) := by
  have e1 : (((N + 1 : Nat) : Int)) = (N : Int) + 1 := by push_cast; rfl
  unfold callsRoom
  rw [e1]
  generalize hg : 24 * X + 400 = g at *
  have e2 : ((N : Int) + 1) * g = (N : Int) * g + g := by rw [Int.add_mul, Int.one_mul]
  generalize hq : 3 * (b + ((N : Int) + 1) * g + 400 * (s + S)) + 1000 = q
  have h1 : 3 * (b' + (N : Int) * g + 400 * S) + 1000 ≤ q := by omega
  have h2 : (N : Int) * (3 * (b' + (N : Int) * g + 400 * S) + 1000) ≤ (N : Int) * q := Int.mul_le_mul_of_nonneg_left h1 (by omega)
  have e3 : ((N : Int) + 1) * q = (N : Int) * q + q := by rw [Int.add_mul, Int.one_mul]
  omega

theorem memEach_room (U : Int → Prop) (slack : Nat) (hsl : slack ≤ 65533) (X : Int) (hX : X = 65533 - slack) (ops : List (MOp × (Nat → Bool))) :
    ∀ (M : MDom) (a : Arena) (d : Dom) (_ : Held U M a d)
    (_ : Reachable d) (pg : Page) (_ : Shows d pg) (_ : ∀ o ∈ ops, o.1.Given U) (_ : pg.PermitsAll (readAll a.mem ops))
    (_ : Room d (((readAll a.mem ops).map fun o => o.1.cost).sum + slack))
    (b : Int) (_ : domBytes d ≤ b),
    (callsRoom b X ops.length (sizes ops) ≤ a.stop - a.beg → memEach ops M a ≠ .longjmp) ∧
    ∀ vs M' a', memEach ops M a = .ok (vs, M', a') → a'.beg - a.beg ≤ callsRoom b X ops.length (sizes ops) := by
  induction ops with
  | nil =>
    intro M a d h hR pg hs _ _ _ b _
    refine ⟨fun _ e => (by cases e), fun vs M' a' e => ?_⟩
    cases e
    simp [callsRoom, sizes]
  | cons o ops ih =>
    intro M a d h hR pg hs hg ha hr b hb
    have hro : readAll a.mem (o :: ops) = (o.1.read a.mem, o.2) :: readAll a.mem ops := rfl
    rw [hro] at ha hr
    rw [List.map_cons, List.sum_cons] at hr
    obtain ⟨v, d1, e1, h1, s1, g1, r1⟩ := C106_call d hR pg hs o.2 (o.1.read a.mem) ha.1 (hr.le (by dsimp only; omega))
    have hj : Reads fun i => Out.ok (o.2 i) := fun i => ⟨_, rfl⟩
    have hr1 := r1 (((readAll a.mem ops).map fun o => o.1.cost).sum + slack) (by rw [← Nat.add_assoc]; exact hr)
    have hgr : domBytes d1 ≤ b + (24 * X + 400) + 400 * o.1.size := by
      have hrun : runOp (fun i => Out.ok (o.2 i)) (o.1.read a.mem) d = .ok d1 := by rw [runOp_call, e1]; rfl
      have h3 := runOp_grow_bytes hj (o.1.read a.mem) (Reachable.inv hR) d1 hrun
      unfold Grown_bytes at h3
      rw [read_weight] at h3
      have h4 := h1.rows
      have h5 := hr1.nodes
      rw [domBytes_eq] at hb ⊢
      omega
    have hN : 0 ≤ ((ops.length : Int) + 1) * (24 * X + 400) := by
      apply Int.mul_nonneg <;> omega
    have hS : 0 ≤ o.1.size + sizes ops := by have := size_nonneg o.1; have := sizes_nonneg ops; omega
    have hstep := callsRoom_step (b := b) (b' := b + (24 * X + 400) + 400 * o.1.size) (X := X) (s := o.1.size) (S := sizes ops) (N := ops.length) (le_refl _) hN hS
    rw [List.length_cons, sizes_cons]
    have hpos : 0 ≤ callsRoom (b + (24 * X + 400) + 400 * o.1.size) X ops.length (sizes ops) := by
      have h0 : 0 ≤ domBytes d1 := by rw [domBytes_eq]; unfold Dom.bytes; omega
      have hN' : 0 ≤ (ops.length : Int) * (24 * X + 400) := by apply Int.mul_nonneg <;> omega
      have := sizes_nonneg ops
      unfold callsRoom
      have : 0 ≤ (ops.length : Int) * (3 * (b + (24 * X + 400) + 400 * o.1.size + (ops.length : Int) * (24 * X + 400) + 400 * sizes ops) + 1000) := by
        apply Int.mul_nonneg <;> omega
      omega
    rcases h.call (hg o (by simp)) hj e1 with ⟨x, y⟩ | ⟨M1, a1, x, hh, b1, b2, b4, b3⟩
    · refine ⟨fun hroom => by omega, fun vs M' a' e => ?_⟩
      rw [memEach, x] at e; cases e
    · have hsame : readAll a1.mem ops = readAll a.mem ops :=
        List.map_congr_left fun o' ho' => by rw [read_congr (hg o' (by simp [ho'])) b3]
      have := ih M1 a1 d1 hh h1 _ s1 (fun o' ho' => hg o' (by simp [ho'])) (by rw [hsame]; exact ha.2)
        (by rw [hsame]; exact hr1) _ hgr
      refine ⟨fun hroom e => ?_, fun vs M' a' e => ?_⟩
      · rw [memEach, x] at e
        change (memEach ops M1 a1 >>= _) = _ at e
        refine this.1 (by omega) ?_
        cases hm : memEach ops M1 a1 with
        | longjmp => rfl
        | ok r => rw [hm] at e; cases e
        | ub w => rw [hm] at e; cases e
        | hang => rw [hm] at e; cases e
      · rw [memEach, x] at e
        change (memEach ops M1 a1 >>= _) = _ at e
        rw [Out.bind_eq_ok] at e
        obtain ⟨⟨vs1, M2, a2⟩, e1, e2⟩ := e
        have := this.2 vs1 M2 a2 e1
        cases e2
        omega

/-- An arena with `sessionRoom` bytes left is enough for a session: it runs to its end as C106 says, and takes no more. -/
theorem C107_session_fits (a : Arena) (ha : ArenaOK a) (h0 : 0 < a.beg) (src : MStr) (s : Str) (hs : SourceAt a src s) (ts : List Tree)
    (ho : outcome s = .document ts) (ops : List (MOp × (Nat → Bool))) (hg : ∀ o ∈ ops, o.1.Given fun y => y < a.beg ∨ a.stop ≤ y)
    (hal : (Page.load s).PermitsAll (readAll a.mem ops))
    (hlen : s.length + ((readAll a.mem ops).map fun o => o.1.cost).sum ≤ 65533)
    (hroom : sessionRoom s.length ops.length (sizes ops) ≤ a.stop - a.beg) :
    ∃ vs M' a' d', memSession src ops a = .ok (some (vs, M', a')) ∧ Reachable d' ∧
      (∀ mem', SameButFree a' a'.mem mem' → InMemory mem' M' d') ∧ Shows d' ((Page.load s).calls (readAll a.mem ops)) ∧
      ReturnsAll (Page.load s) (readAll a.mem ops) vs ∧ a'.beg - a.beg ≤ sessionRoom s.length ops.length (sizes ops) := by
  have hc := C93_every_input s (by omega)
  rw [ho] at hc
  obtain ⟨d, hd, _⟩ := hc
  generalize hk : ((readAll a.mem ops).map fun o => o.1.cost).sum = k at *
  have hkS := cost_le_sizes a.mem ops
  rw [hk] at hkS
  -- the siblings recorded are fewer than the nodes
  have hmain : ∀ M a1, memCreateDom src a = .ok (some M, a1) →
      (memEach ops M a1 ≠ .longjmp) ∧ ∀ vs M' a', memEach ops M a1 = .ok (vs, M', a') → a'.beg - a.beg ≤ sessionRoom s.length ops.length (sizes ops) := by
    intro M a1 x
    have hl := (C84_memory_is_linear a ha h0 src s hs _ hd).2 _ _ x
    obtain ⟨q, a1', x', b1, _, b3, b4, hq, hM⟩ := (C83_parse_in_memory a ha h0 src s hs _ hd).resolve_left (by rw [x]; simp)
    rw [x] at x'; cases x'
    have hh : Held (fun y => y < a.beg ∨ a.stop ≤ y) M a1 d := (MemHistory.created ha h0 hs hd x).held
    have hsame : readAll a1.mem ops = readAll a.mem ops :=
      List.map_congr_left fun o' ho' => by rw [read_congr (hg o' ho') b4]
    have hdb : domBytes d ≤ 840 + 320 * (s.length : Int) := by
      unfold createDom at hd
      rw [Out.bind_eq_ok] at hd
      obtain ⟨r, hr, e⟩ := hd
      have := parse_cost (junk := fun _ => .ub .oobIndex) (by simp) s Dom.init rootID [(rootID, [])] r hr
      have hinit : Dom.init.bytes ≤ 840 := by decide
      cases hrok : r.ok with
      | false => rw [hrok] at e; cases e
      | true =>
        rw [hrok] at e
        cases e
        rw [domBytes_eq]
        omega
    have := memEach_room (fun y => y < a.beg ∨ a.stop ≤ y) (65533 - s.length - k) (by omega) ((s.length : Int) + k) (by omega) ops M a1 d hh (.parsed hd) _
      (C95_load s d hd) hg (by rw [hsame]; exact hal)
      (by rw [hsame, hk]; exact (createDom_room (by omega)).elim hd d rfl) _ hdb
    have hmono : callsRoom (840 + 320 * (s.length : Int)) ((s.length : Int) + k) ops.length (sizes ops) ≤
        callsRoom (840 + 320 * (s.length : Int)) ((s.length : Int) + sizes ops) ops.length (sizes ops) := by
      unfold callsRoom
      have h1 : (ops.length : Int) * (24 * ((s.length : Int) + k) + 400) ≤ (ops.length : Int) * (24 * ((s.length : Int) + sizes ops) + 400) :=
        Int.mul_le_mul_of_nonneg_left (by omega) (by omega)
      have h2 : (ops.length : Int) * (3 * (840 + 320 * (s.length : Int) + (ops.length : Int) * (24 * ((s.length : Int) + k) + 400) + 400 * sizes ops) + 1000) ≤
          (ops.length : Int) * (3 * (840 + 320 * (s.length : Int) + (ops.length : Int) * (24 * ((s.length : Int) + sizes ops) + 400) + 400 * sizes ops) + 1000) :=
        Int.mul_le_mul_of_nonneg_left (by omega) (by omega)
      omega
    unfold sessionRoom at hroom ⊢
    refine ⟨this.1 (by omega), fun vs M' a' e => ?_⟩
    have := this.2 vs M' a' e
    omega
  have hpos : 0 ≤ callsRoom (840 + 320 * (s.length : Int)) ((s.length : Int) + sizes ops) ops.length (sizes ops) := by
    have hS := sizes_nonneg ops
    have hN' : 0 ≤ (ops.length : Int) * (24 * ((s.length : Int) + sizes ops) + 400) := by apply Int.mul_nonneg <;> omega
    unfold callsRoom
    have : 0 ≤ (ops.length : Int) * (3 * (840 + 320 * (s.length : Int) + (ops.length : Int) * (24 * ((s.length : Int) + sizes ops) + 400) + 400 * sizes ops) + 1000) := by
      apply Int.mul_nonneg <;> omega
    omega
  rcases C106_memory a ha h0 src s hs ts ho ops hg hal (by rw [hk]; exact hlen) with x | ⟨vs, M', a', d', x, h1, h2, h3, h4, h5, h6, _⟩
  · exfalso
    unfold memSession at x
    cases hm : memCreateDom src a with
    | longjmp =>
      refine (C84_memory_is_linear a ha h0 src s hs _ hd).1 ?_ hm
      unfold sessionRoom at hroom
      omega
    | ub w => rw [hm] at x; cases x
    | hang => rw [hm] at x; cases x
    | ok r =>
      obtain ⟨q, a1⟩ := r
      rw [hm] at x
      cases q with
      | none => cases x
      | some M =>
        have := (hmain M a1 hm).1
        change (memEach ops M a1 >>= _) = _ at x
        cases hm2 : memEach ops M a1 with
        | longjmp => exact this hm2
        | ok r => rw [hm2] at x; cases x
        | ub w => rw [hm2] at x; cases x
        | hang => rw [hm2] at x; cases x
  · refine ⟨vs, M', a', d', x, h1, h2, h3, h5, ?_⟩
    unfold memSession at x
    rw [Out.bind_eq_ok] at x
    obtain ⟨⟨q, a1⟩, hm, x⟩ := x
    cases q with
    | none => cases x
    | some M =>
      change (memEach ops M a1 >>= _) = _ at x
      rw [Out.bind_eq_ok] at x
      obtain ⟨r, hm2, x⟩ := x
      cases x
      exact (hmain M a1 hm).2 _ _ _ hm2

/-! ## A concrete session -/

theorem memOps_read' (n : Int) : readAll (parseArena n).mem memOps =
    [(.appendText 2 b!"y", fun _ => true), (.attr (.add 4 b!"p" b!"b"), fun _ => true), (.replaceText 3 b!"c", fun _ => true)] := rfl

/-- The source has 21 bytes, the three calls have strings of 8 bytes with one more for each. -/
example : sessionRoom 21 3 (sizes memOps) = 144992 := by decide +kernel

example : ∃ vs M' a', memSession parseSrc memOps (parseArena 144992) = .ok (some (vs, M', a')) := by
  obtain ⟨ts, hts⟩ : ∃ ts, outcome b!"<p a=b c>x  y<i/></p>" = .document ts := ⟨_, rfl⟩
  obtain ⟨vs, M', a', _, h, _⟩ := C107_session_fits (parseArena 144992) ⟨by simp [parseArena], by simp [parseArena], by simp [parseArena]⟩ (by simp [parseArena])
    parseSrc _ (parseSrc_at _) ts hts memOps (by
      intro o ho
      simp only [memOps, List.mem_cons, List.not_mem_nil, or_false] at ho
      rcases ho with rfl | rfl | rfl <;>
        (refine ⟨?_, ?_, ?_, ?_⟩ <;> simp [MOp.node, MOp.strings, parseArena] <;> (try constructor) <;> (intros; omega)))
    (by
      rw [memOps_read']
      refine ⟨Or.inl ⟨.elem b!"p" [(b!"a", b!"b")] [b!"c"], ?_, rfl⟩, Or.inl ⟨.elem b!"i" [] [], ?_⟩, Or.inl ?_, trivial⟩
      · exact .tail _ (.head _)
      · exact .tail _ (.tail _ (.tail _ (.head _)))
      · exact ⟨_, rfl⟩)
    (by rw [memOps_read']; decide +kernel) (by decide +kernel)
  exact ⟨vs, M', a', h⟩

end Flo
