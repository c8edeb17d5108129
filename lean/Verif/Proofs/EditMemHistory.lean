import Verif.Proofs.EditMemOps
import Verif.Proofs.DomMemRead
import Verif.Spec.EditMem
/-!
# Editing in memory: calls and histories
-/
namespace Flo
open Spec

variable {V : MEnv} {B T N : Int} {d : Dom} {M : MDom} {a : Arena}

theorem domBytes_eq (d : Dom) : domBytes d = d.bytes := rfl

theorem runOp_call (junk : Nat → Out Bool) (op : Op) (d : Dom) : runOp junk op d = dropValue (callOp junk op d) := by
  have hv : ∀ x : Out Dom, x = dropValue (void x) := by intro x; cases x <;> rfl
  cases op with
  | attr op =>
    cases op with
    | set n k v =>
      show (setPropertyValue n k v d >>= _) = dropValue (setPropertyValue n k v d >>= _)
      cases setPropertyValue n k v d <;> rfl
    | _ => exact hv _
  | addText => exact hv _
  | setTag => exact hv _
  | setText => exact hv _
  | removeNode => exact hv _
  | removeChildren => exact hv _
  | _ => rfl

/-! ## Strings -/

theorem tok_str {s : MStr} (h1 : 0 ≤ s.ptr) (h2 : s.ptr + s.len ≤ 2 ^ 62) (h3 : ∀ y, s.ptr ≤ y → y < s.ptr + s.len → V.keep y) :
    Tok V s (str V.mem s) := by
  refine ⟨by simp [str, bytesFrom], h1, h2, fun i c hc => ?_⟩
  have hi := (List.getElem?_eq_some_iff.1 hc).1
  have hl : (str V.mem s).length = s.len := by simp [str, bytesFrom]
  refine ⟨h3 _ (by omega) (by omega), ?_⟩
  unfold str bytesFrom at hc
  rw [List.getElem?_map, List.getElem?_range (by omega)] at hc
  simpa using hc

theorem Given.tok {op : MOp} (h : op.Given V.keep) {s : MStr} (hs : s ∈ op.strings) : Tok V s (str V.mem s) :=
  tok_str (h.pos s hs) (h.top s hs) (h.mine s hs)

theorem forall₂_map {α β : Type} {R : α → β → Prop} {f : α → β} : ∀ {l : List α}, (∀ x ∈ l, R x (f x)) → List.Forall₂ R l (l.map f)
  | [], _ => .nil
  | x :: l, h => .cons (h x (by simp)) (forall₂_map fun y hy => h y (by simp [hy]))

theorem docTok {r : MDocNode} (h : ∀ s ∈ docStrings r, Tok V s (str V.mem s)) : DocTok V r (docNode V.mem r) := by
  refine ⟨h _ (by simp [docStrings]), rfl, ?_, ?_⟩
  · exact forall₂_map fun s hs => h s (by simp [docStrings, hs])
  · refine forall₂_map (fun p hp => ⟨h _ ?_, h _ ?_⟩)
    · unfold docStrings
      have : p.1 ∈ r.props.map Prod.fst := List.mem_map_of_mem hp
      simp only [List.mem_cons, List.mem_append]
      exact Or.inr (Or.inr (Or.inl this))
    · unfold docStrings
      have : p.2 ∈ r.props.map Prod.snd := List.mem_map_of_mem hp
      simp only [List.mem_cons, List.mem_append]
      exact Or.inr (Or.inr (Or.inr this))

theorem docSize (mem : Int → UInt8) (r : MDocNode) :
    (1 : Int) + ((docNode mem r).boolProps.length : Int) + 2 * ((docNode mem r).props.length : Int) ≤ (((docStrings r).map fun s => s.len + 1).sum : Nat) := by
  have h : ∀ l : List MStr, l.length ≤ (l.map fun s => s.len + 1).sum := by
    intro l
    induction l with
    | nil => simp
    | cons x l ih => simp; omega
  have := h (docStrings r)
  have hl : (docStrings r).length = 1 + r.boolProps.length + 2 * r.props.length := by simp [docStrings]; omega
  have h1 : (docNode mem r).boolProps.length = r.boolProps.length := by simp [docNode]
  have h2 : (docNode mem r).props.length = r.props.length := by simp [docNode]
  omega

/-! ## Calls -/

theorem SimC.voidP {C : Int} {p : Out Dom} {x : Out (MDom × Arena)} (h : SimC V (fun _ => B) p x (EdP V B T N)) (hC : B ≤ C) :
    SimC V (fun _ => C) (void p) (Spec.voidP x) (EdV V C) :=
  h.then hC fun _ ⟨_, _⟩ _ h1 => SimC.okR (EdR.val h1 0 hC)

theorem SimC.voidA {C : Int} {p : Out Dom} {x : Out Arena} (h : SimC V (fun _ => B) p x (EdA V B T N M)) (hC : B ≤ C) :
    SimC V (fun _ => C) (void p) (Spec.voidA M x) (EdV V C) :=
  h.then hC fun _ _ _ h1 => SimC.okR (EdR.val h1 0 hC)

theorem call_sim {own : Int → Owner} (h : Rep V own 0 M a d) {op : MOp} (ho : op.Given V.keep) {junk : Nat → Out Bool} (hj : Reads junk) :
    SimC V (fun _ => 3 * d.bytes + 1000 * op.size + 1000) (callOp junk (op.read V.mem) d) (memCall junk op M a)
      (EdV V (3 * d.bytes + 1000 * op.size + 1000)) := by
  have hE : EdR V d.bytes d.textLen d.nn.length d M a := ⟨own, 0, h, by omega, le_refl _, le_refl _⟩
  have hb := d.bytes_text
  have hj' : ∀ i, junk i ≠ .hang := by intro i e; obtain ⟨b, hb⟩ := hj i; rw [hb] at e; cases e
  have hn := ho.node
  have ht : ∀ s ∈ op.strings, Tok V s (str V.mem s) := fun s hs => Given.tok ho hs
  have hl : ∀ r : MStr, (str V.mem r).length = r.len := fun r => by simp [str, bytesFrom]
  have hD : ∀ n : Int, d.bytes + n ≤ 4 * ((d.bytes + n + 3) / 4) := by intro n; omega
  cases op with
  | add n k v =>
    have hs : MOp.size (.add n k v) = (k.len : Int) + 1 + (v.len + 1) := by simp [MOp.size, MOp.strings]
    exact (hE.addProp hn (ht k (by simp [MOp.strings])) (ht v (by simp [MOp.strings]))).voidP (by omega)
  | addBool n b =>
    have hs : MOp.size (.addBool n b) = (b.len : Int) + 1 := by simp [MOp.size, MOp.strings]
    exact (hE.addBool hn (ht b (by simp [MOp.strings]))).voidP (by omega)
  | set n k v =>
    have hs : MOp.size (.set n k v) = (k.len : Int) + 1 + (v.len + 1) := by simp [MOp.size, MOp.strings]
    have := hE.setProp (ht k (by simp [MOp.strings])) (ht v (by simp [MOp.strings])) n
    exact this.then (by omega) fun _ ⟨_, _, _⟩ _ h1 => SimC.okR ⟨by rw [← h1.1], _, _, EdR.mono h1.2 (by omega) (le_refl _) (le_refl _)⟩
  | remove n k =>
    have hs : MOp.size (.remove n k) = (k.len : Int) + 1 := by simp [MOp.size, MOp.strings]
    exact (hE.removeProp (ht k (by simp [MOp.strings])) n).voidA (by omega)
  | removeBool n b =>
    have hs : MOp.size (.removeBool n b) = (b.len : Int) + 1 := by simp [MOp.size, MOp.strings]
    exact (hE.removeBool (ht b (by simp [MOp.strings])) n).voidA (by omega)
  | addText n t i =>
    have hs : MOp.size (.addText n t i) = (t.len : Int) + 1 := by simp [MOp.size, MOp.strings]
    have := hl t
    exact (hE.addText (hE.away (ht t (by simp [MOp.strings]))) n i).voidA (by omega)
  | setTag t n p =>
    have hs : MOp.size (.setTag t n p) = (t.len : Int) + 1 := by simp [MOp.size, MOp.strings]
    exact (hE.setTag (ht t (by simp [MOp.strings])) n p).voidP (by omega)
  | setText n t =>
    have hs : MOp.size (.setText n t) = (t.len : Int) + 1 := by simp [MOp.size, MOp.strings]
    have := hl t
    exact (hE.setText (ht t (by simp [MOp.strings])) hn).voidP (by omega)
  | removeNode n =>
    have hs : MOp.size (.removeNode n) = 0 := by simp [MOp.size, MOp.strings]
    exact (hE.remove n).voidA (by omega)
  | removeChildren n =>
    have hs : MOp.size (.removeChildren n) = 0 := by simp [MOp.size, MOp.strings]
    exact (hE.removeKids n).voidA (by omega)
  | appendDoc p r =>
    have hs : _ ≤ MOp.size (.appendDoc p r) := docSize V.mem r
    exact hE.appendDoc (docTok ht) hn (by omega)
  | prependDoc p r =>
    have hs : _ ≤ MOp.size (.prependDoc p r) := docSize V.mem r
    exact hE.prependDoc (docTok ht) hn (by omega)
  | replaceDoc n r =>
    have hs : _ ≤ MOp.size (.replaceDoc n r) := docSize V.mem r
    exact hE.replaceDoc (docTok ht) n (by omega)
  | appendText p t =>
    have hs : MOp.size (.appendText p t) = (t.len : Int) + 1 := by simp [MOp.size, MOp.strings]
    have := hl t
    exact hE.appendText (ht t (by simp [MOp.strings])) hn (by omega)
  | prependText p t =>
    have hs : MOp.size (.prependText p t) = (t.len : Int) + 1 := by simp [MOp.size, MOp.strings]
    have := hl t
    exact hE.prependText (ht t (by simp [MOp.strings])) hn (by omega)
  | replaceText n t =>
    have hs : MOp.size (.replaceText n t) = (t.len : Int) + 1 := by simp [MOp.size, MOp.strings]
    have := hl t
    exact hE.replaceText (ht t (by simp [MOp.strings])) n (by omega)
  | appendHTML p t =>
    have hs : MOp.size (.appendHTML p t) = (t.len : Int) + 1 := by simp [MOp.size, MOp.strings]
    have := hl t
    exact hE.appendHtml hj' (ht t (by simp [MOp.strings])) hn (hD _) (by omega)
  | prependHTML p t =>
    have hs : MOp.size (.prependHTML p t) = (t.len : Int) + 1 := by simp [MOp.size, MOp.strings]
    have := hl t
    exact hE.prependHtml hj' (ht t (by simp [MOp.strings])) hn (hD _) (by omega)
  | replaceHTML n t =>
    have hs : MOp.size (.replaceHTML n t) = (t.len : Int) + 1 := by simp [MOp.size, MOp.strings]
    have := hl t
    exact hE.replaceHtml hj' (ht t (by simp [MOp.strings])) n (hD _) (by omega)

/-! ## Histories -/

/-- The structure is good: there is an owner map under which the caller's memory is the caller's. -/
def Held (U : Int → Prop) (M : MDom) (a : Arena) (d : Dom) : Prop :=
  ∃ V own x, Rep V own x M a d ∧ ∀ y, U y → V.keep y

/-- Count from here, and keep the caller's memory as it is now. -/
theorem Held.now {U : Int → Prop} (h : Held U M a d) :
    ∃ V own, Rep V own 0 M a d ∧ (∀ y, U y → V.keep y) ∧ V.mem = a.mem ∧ V.stop = a.stop ∧ V.floor = a.beg ∧ V.base ≤ a.beg := by
  obtain ⟨V, own, x, hr, hU⟩ := h
  refine ⟨{ V with mem := a.mem, base := a.beg - M.ledger - 4 * (d.textLen : Int), floor := a.beg }, own, ?_, hU, rfl, hr.stop.symm, rfl, ?_⟩
  · exact { hr with out := fun y hy => ⟨(hr.out y hy).1, rfl⟩, oth := fun y hy => ⟨(hr.oth y hy).1, rfl⟩, above := le_refl _, led := by show a.beg ≤ a.beg - M.ledger - 4 * (d.textLen : Int) + _ + _ + _; omega }
  · have h0 : ∀ {α : Type} {o : Owner} {k : Kind} {E : ElemAt α} {s : Arr} {l : List α}, ArrRep own o k E V.lo a s l → 0 ≤ s.cap :=
      fun h => le_trans h.ok.len0 h.ok.lenCap
    have h1 := nook_le (h0 hr.nodes)
    have g1 := h0 hr.nodes
    have h2 := nook_le (h0 hr.fc)
    have g2 := h0 hr.fc
    have h3 := nook_le (h0 hr.pc)
    have g3 := h0 hr.pc
    have h4 := nook_le (h0 hr.nn)
    have g4 := h0 hr.nn
    have h5 := nook_le (h0 hr.boolProps)
    have g5 := h0 hr.boolProps
    have h6 := nook_le (h0 hr.props)
    have g6 := h0 hr.props
    have h7 := nook_le (h0 hr.tagReg)
    have g7 := h0 hr.tagReg
    have h8 := nook_le (h0 hr.boolReg)
    have g8 := h0 hr.boolReg
    have h9 := nook_le (h0 hr.keyReg)
    have g9 := h0 hr.keyReg
    have h10 := nook_le (h0 hr.valReg)
    have g10 := h0 hr.valReg
    show a.beg - M.ledger - 4 * (d.textLen : Int) ≤ a.beg
    unfold MDom.ledger
    omega

theorem Held.used {U : Int → Prop} (h : Held U M a d) {b : Int} {mem : Int → UInt8} (h1 : a.beg ≤ b) (h2 : b ≤ a.stop) (hm : SameButFree a a.mem mem) :
    Held (fun y => U y ∨ (a.beg ≤ y ∧ y < b)) M { a with beg := b, mem := mem } d := by
  obtain ⟨V, own, x, hr, hU⟩ := h
  have hr := hr.rewrite hm
  let own' : Int → Owner := fun y => if a.beg ≤ y ∧ y < b then .fixed else own y
  have hA : Around (fun _ => False) own { a with mem := mem } own' { a with beg := b, mem := mem } := by
    refine ⟨h1, h2, rfl, fun y hy _ => ⟨?_, rfl⟩, fun y hy hy2 ho => ?_⟩
    · show (if _ then _ else _) = _
      rw [if_neg]
      intro hc
      exact hy (hr.free y hc.1 (by show y < a.stop; omega))
    · show (if _ then _ else _) = _
      change b ≤ y at hy
      rw [if_neg (by omega)]
      exact ho
  have hr2 : Rep V own' (x + (b - a.beg)) M { a with beg := b, mem := mem } d := by
    refine hr.other hA (fun _ hf => False.elim hf) ?_
    show b + x ≤ a.beg + (x + (b - a.beg))
    omega
  refine ⟨{ V with keep := fun y => V.keep y ∨ (a.beg ≤ y ∧ y < b), mem := mem }, own', _, { hr2 with out := fun y hy => ⟨?_, rfl⟩, oth := fun y hy => ⟨(hr2.oth y hy).1, rfl⟩ }, fun y hy => ?_⟩
  · show (if _ then _ else _) = _
    split
    · rfl
    · rcases hy with hy | hy
      · exact (hr.out y hy).1
      · contradiction
  · exact hy.imp (hU y) id

theorem Spec.MOp.Given.mono {U U' : Int → Prop} {op : MOp} (h : op.Given U) (hU : ∀ y, U y → U' y) : op.Given U' :=
  ⟨h.node, h.pos, h.top, fun s hs y h1 h2 => hU y (h.mine s hs y h1 h2)⟩

/-- A call keeps the structure good. -/
theorem Held.call {U : Int → Prop} (h : Held U M a d) {op : MOp} (ho : op.Given U) {junk : Nat → Out Bool} (hj : Reads junk) {v : Nat} {d' : Dom}
    (e : callOp junk (op.read a.mem) d = .ok (v, d')) :
    (memCall junk op M a = .longjmp ∧ a.stop < a.beg + (3 * domBytes d + 1000 * op.size + 1000)) ∨
    ∃ M' a', memCall junk op M a = .ok (v, M', a') ∧ Held U M' a' d' ∧ a.beg ≤ a'.beg ∧ a'.stop = a.stop ∧
      a'.beg ≤ a.beg + (3 * domBytes d + 1000 * op.size + 1000) ∧ ∀ y, U y → a'.mem y = a.mem y := by
  obtain ⟨V, own, hr, hU, hm, hs, hf, hb⟩ := h.now
  rw [domBytes_eq]
  have := call_sim hr (ho.mono hU) hj
  rw [hm] at this
  rcases this.ok _ e with ⟨h1, h2⟩ | ⟨⟨v', M', a'⟩, h1, h2, T, N, own', x, h3, h4, h5⟩
  · left
    refine ⟨h1, ?_⟩
    rw [← hs]
    omega
  · right
    dsimp only at h2 h3 h4 ⊢
    subst h2
    have hl := h3.led
    have hy := h3.bytes
    refine ⟨M', a', h1, ⟨V, own', x, h3, hU⟩, by rw [← hf]; exact h3.above, h3.stop.trans hs, by omega, fun y hy => by rw [← hm]; exact (h3.out y (hU y hy)).2⟩

end Flo
