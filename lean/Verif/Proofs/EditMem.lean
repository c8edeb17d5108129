import Verif.Proofs.EditMemRep
/-!
# Editing in memory: relating runs
-/
namespace Flo
open Spec

/-- The memory represents `d`; what was allocated since `V.base` is at most `B` bytes; `T` and `N` bound the text and the sibling rows. -/
def EdR (V : MEnv) (B T N : Int) (d : Dom) (M : MDom) (a : Arena) : Prop :=
  ∃ own x, Rep V own x M a d ∧ d.bytes + x ≤ B ∧ (d.textLen : Int) ≤ T ∧ (d.nn.length : Int) ≤ N

/-- The same with the costs counted from `x` bytes further on. -/
def MEnv.shift (V : MEnv) (x : Int) : MEnv := { V with base := V.base + x }

theorem Rep.shift {V : MEnv} {own : Int → Owner} {x : Int} {M : MDom} {a : Arena} {d : Dom} (h : Rep V own x M a d) :
    Rep (V.shift x) own 0 M a d :=
  { h with led := by have := h.led; show a.beg ≤ V.base + x + _ + _ + _; omega }

theorem Rep.unshift {V : MEnv} {own : Int → Owner} {x : Int} {M : MDom} {a : Arena} {d : Dom} (h : Rep (V.shift x) own 0 M a d) :
    Rep V own x M a d :=
  { h with led := by have := h.led; change a.beg ≤ V.base + x + _ + _ + _ at this; omega }

theorem Tok.shift {V : MEnv} {r : MStr} {t : Str} (h : Tok V r t) (x : Int) : Tok (V.shift x) r t := ⟨h.len, h.pos, h.top, h.out⟩

/-- A run with costs relative to the shifted base, with a bound for its cost. -/
theorem SimC.unshift {α β : Type} {V : MEnv} {x B : Int} {L : α → Int} {p : Out α} {y : Out β} {R : α → β → Prop}
    (h : SimC (V.shift x) L p y R) (hB : Ok (fun r => L r + x ≤ B) p) : SimC V (fun _ => B) p y R := by
  refine ⟨fun r e => ?_, h.jump⟩
  rcases h.ok r e with ⟨h1, h2⟩ | h1
  · left
    refine ⟨h1, ?_⟩
    have := hB r e
    change V.stop < V.base + x + _ at h2
    omega
  · exact Or.inr h1

theorem SimC.then {α β γ δ : Type} {V : MEnv} {B1 B2 : Int} {p : Out α} {f : α → Out γ} {x : Out β} {g : β → Out δ}
    {R1 : α → β → Prop} {R2 : γ → δ → Prop} (h : SimC V (fun _ => B1) p x R1) (hB : B1 ≤ B2)
    (hf : ∀ r b, p = .ok r → R1 r b → SimC V (fun _ => B2) (f r) (g b) R2) : SimC V (fun _ => B2) (p >>= f) (x >>= g) R2 :=
  h.bind (fun _ _ _ _ => hB) hf


variable {V : MEnv} {B T N : Int} {d : Dom} {M : MDom} {a : Arena}

theorem EdR.mono {B' T' N' : Int} (h : EdR V B T N d M a) (hB : B ≤ B') (hT : T ≤ T') (hN : N ≤ N') : EdR V B' T' N' d M a := by
  obtain ⟨own, x, h1, h2, h3, h4⟩ := h
  exact ⟨own, x, h1, by omega, by omega, by omega⟩

/-- A relation for results with a structure and an arena. -/
def EdP (V : MEnv) (B T N : Int) (d : Dom) (b : MDom × Arena) : Prop := EdR V B T N d b.1 b.2

/-- A relation for results with a number. -/
def EdI (V : MEnv) (B T N : Int) (r : Nat × Dom) (b : Nat × MDom × Arena) : Prop := b.1 = r.1 ∧ r.1 < 65536 ∧ EdR V B T N r.2 b.2.1 b.2.2

/-- A relation for results with an arena only. -/
def EdA (V : MEnv) (B T N : Int) (M : MDom) (d : Dom) (a : Arena) : Prop := EdR V B T N d M a

/-- A relation for results with a truth value and an arena. -/
def EdB (V : MEnv) (B T N : Int) (M : MDom) (r : Bool × Dom) (b : Bool × Arena) : Prop := b.1 = r.1 ∧ EdR V B T N r.2 M b.2

/-- A relation for results with a number and an arena. -/
def EdN (V : MEnv) (B T N : Int) (M : MDom) (r : Nat × Dom) (b : Nat × Arena) : Prop := b.1 = r.1 ∧ r.1 < 65536 ∧ EdR V B T N r.2 M b.2

theorem EdR.tables (h : EdR V B T N d M a) : memTables M a.mem = d.rows := by
  obtain ⟨own, x, h1, h2⟩ := h
  exact h1.tables

theorem EdR.text (h : EdR V B T N d M a) : (d.textLen : Int) ≤ T := by
  obtain ⟨own, x, h1, h2, h3, h4⟩ := h
  exact h3

theorem EdR.nexts (h : EdR V B T N d M a) : (d.nn.length : Int) ≤ N := by
  obtain ⟨own, x, h1, h2, h3, h4⟩ := h
  exact h4

theorem EdR.count (h : EdR V B T N d M a) : M.nodes.len = d.nodes.length := by
  obtain ⟨own, x, h1, h2⟩ := h
  exact h1.nodes.len

theorem EdR.nnLen (h : EdR V B T N d M a) : M.nn.len = d.nn.length := by
  obtain ⟨own, x, h1, h2⟩ := h
  exact h1.nn.len

theorem EdR.few (h : EdR V B T N d M a) : d.nodes.length ≤ 65535 := by
  obtain ⟨own, x, h1, h2⟩ := h
  exact h1.few

theorem EdR.smallNn (h : EdR V B T N d M a) : Small d.nn := by
  obtain ⟨own, x, h1, h2⟩ := h
  exact small_of h1.nn

theorem EdR.smallFc (h : EdR V B T N d M a) : Small d.fc := by
  obtain ⟨own, x, h1, h2⟩ := h
  exact small_of h1.fc

theorem EdR.smallPc (h : EdR V B T N d M a) : Small d.pc := by
  obtain ⟨own, x, h1, h2⟩ := h
  exact small_of h1.pc

theorem EdR.rowsFc (h : EdR V B T N d M a) : memRows M.fc a.mem = d.fc := by
  obtain ⟨own, x, h1, h2⟩ := h
  exact memRows_eq h1.fc

theorem EdR.rowsPc (h : EdR V B T N d M a) : memRows M.pc a.mem = d.pc := by
  obtain ⟨own, x, h1, h2⟩ := h
  exact memRows_eq h1.pc

theorem EdR.rowsNn (h : EdR V B T N d M a) : memRows M.nn a.mem = d.nn := by
  obtain ⟨own, x, h1, h2⟩ := h
  exact memRows_eq h1.nn

theorem EdR.node (h : EdR V B T N d M a) {n : Nat} {nd : Node} (hn : d.nodes[n]? = some nd) :
    memNode n M = .ok (bufPtr M.nodes.buf + 24 * (n : Int)) := by
  have := h.count
  have := (List.getElem?_eq_some_iff.1 hn).1
  unfold memNode
  rw [if_pos (by omega)]

theorem code_text (t : NodeType) : (t.code == NodeType.text.code) = decide (t = .text) := by cases t <;> decide

theorem EdR.isText (h : EdR V B T N d M a) {n : Nat} {nd : Node} (hn : d.nodes[n]? = some nd) :
    memIsText n M a.mem = .ok (decide (nd.type = .text)) := by
  unfold memIsText
  rw [h.node hn, Out.bind_ok]
  obtain ⟨own, x, h1, h2⟩ := h
  have := (h1.nodes.addr hn).2.1
  rw [bufPtr_entry] at this
  rw [this, code_text]

theorem EdR.nodeID (h : EdR V B T N d M a) {n : Nat} {nd : Node} (hn : d.nodes[n]? = some nd) :
    memNodeID n M a.mem = .ok n := by
  unfold memNodeID
  rw [h.node hn, Out.bind_ok]
  obtain ⟨own, x, h1, h2⟩ := h
  have := (h1.nodes.addr hn).1
  rw [bufPtr_entry] at this
  rw [this]

theorem getText_ok {nd : Node} {s : Str} (h : nd.getText = .ok s) : nd.payload = .text s := by
  unfold Node.getText at h
  split at h
  · cases h; assumption
  · cases h

/-- Splitting off the reading of a node. -/
theorem SimC.node {α β : Type} {L : α → Int} {n : Nat} {f : Node → Out α} {x : Out β} {R : α → β → Prop}
    (hf : ∀ nd, d.nodes[n]? = some nd → SimC V L (f nd) x R) : SimC V L (d.node n >>= f) x R := by
  cases hn : d.nodes[n]? with
  | none =>
    have : d.node n = .ub .oobIndex := by unfold Dom.node; rw [hn]
    rw [this]; exact SimC.ub
  | some nd =>
    have : d.node n = .ok nd := by unfold Dom.node; rw [hn]
    rw [this, Out.bind_ok]; exact hf nd hn

theorem SimC.getText {α β : Type} {L : α → Int} {nd : Node} {f : Str → Out α} {x : Out β} {R : α → β → Prop}
    (hf : ∀ s, nd.payload = .text s → SimC V L (f s) x R) : SimC V L (nd.getText >>= f) x R := by
  cases hp : nd.payload with
  | tag t =>
    have : nd.getText = .ub .badUnion := by unfold Node.getText; rw [hp]
    rw [this]; exact SimC.ub
  | text s =>
    have : nd.getText = .ok s := by unfold Node.getText; rw [hp]
    rw [this, Out.bind_ok]; exact hf s hp

/-! ## Pushing rows -/

theorem EdR.pushed {own : Int → Owner} {x C B' T' N' : Int} {d' : Dom} {y : Out (MDom × Arena)} (hB : d.bytes + x ≤ B)
    (hp : PushRuns V x (d'.bytes + x) y d') (hc : d'.bytes ≤ d.bytes + C) (hT : (d'.textLen : Int) ≤ T') (hN : (d'.nn.length : Int) ≤ N') (hB' : B + C ≤ B') :
    SimC V (fun _ => B') (.ok d') y (EdP V B' T' N') := by
  refine ⟨fun r e => ?_, fun e => by cases e⟩
  cases e
  rcases hp with ⟨h1, h2⟩ | ⟨M', a', own', h1, h2⟩
  · exact Or.inl ⟨h1, by omega⟩
  · exact Or.inr ⟨_, h1, own', x, h2, by omega, hT, hN⟩

theorem EdR.pushFc (h : EdR V B T N d M a) {r : Row} (h1 : r.1 < 65536) (h2 : r.2 < 65536) :
    SimC V (fun _ => B + 24) (.ok { d with fc := d.fc ++ [r] }) (Flo.pushFc r M a) (EdP V (B + 24) T N) := by
  obtain ⟨own, x, hr, hB, hT, hN⟩ := h
  exact EdR.pushed (own := own) hB (hr.addFc h1 h2) (C := 24) (by unfold Dom.bytes Dom.textLen; simp; omega) hT hN (le_refl _)

theorem EdR.pushPc (h : EdR V B T N d M a) {r : Row} (h1 : r.1 < 65536) (h2 : r.2 < 65536) :
    SimC V (fun _ => B + 24) (.ok { d with pc := d.pc ++ [r] }) (Flo.pushPc r M a) (EdP V (B + 24) T N) := by
  obtain ⟨own, x, hr, hB, hT, hN⟩ := h
  exact EdR.pushed (own := own) hB (hr.addPc h1 h2) (C := 24) (by unfold Dom.bytes Dom.textLen; simp; omega) hT hN (le_refl _)

theorem EdR.pushNn (h : EdR V B T N d M a) {r : Row} (h1 : r.1 < 65536) (h2 : r.2 < 65536) :
    SimC V (fun _ => B + 24) (.ok { d with nn := d.nn ++ [r] }) (Flo.pushNn r M a) (EdP V (B + 24) T (N + 1)) := by
  obtain ⟨own, x, hr, hB, hT, hN⟩ := h
  exact EdR.pushed (own := own) hB (hr.addNn h1 h2) (C := 24) (by unfold Dom.bytes Dom.textLen; simp; omega) hT (by simp; omega) (le_refl _)

/-! ## Names, attributes, fragments -/

theorem EdR.of_domR {x : Int} {b : MDom × Arena} (h : DomR (V.shift x) d b) (hB : d.bytes + x ≤ B) (hT : (d.textLen : Int) ≤ T)
    (hN : (d.nn.length : Int) ≤ N) : EdR V B T N d b.1 b.2 := by
  obtain ⟨own, h⟩ := h
  exact ⟨own, x, h.unshift, hB, hT, hN⟩

/-- Nodes and sibling rows stay. -/
def Stays (d d' : Dom) : Prop := d'.nodes = d.nodes ∧ d'.nn = d.nn

theorem Stays.text {d d' : Dom} (h : Stays d d') : d'.textLen = d.textLen := by unfold Dom.textLen; rw [h.1]

theorem internBool_keeps (s : Str) (d : Dom) : Ok (fun r => Stays d r.2) (internBool s d) := by
  unfold internBool; exact Ok.triv.bind fun r _ => Ok.ok ⟨rfl, rfl⟩
theorem internKey_keeps (s : Str) (d : Dom) : Ok (fun r => Stays d r.2) (internKey s d) := by
  unfold internKey; exact Ok.triv.bind fun r _ => Ok.ok ⟨rfl, rfl⟩
theorem internVal_keeps (s : Str) (d : Dom) : Ok (fun r => Stays d r.2) (internVal s d) := by
  unfold internVal; exact Ok.triv.bind fun r _ => Ok.ok ⟨rfl, rfl⟩
theorem addProperty_keeps (n : Nat) (k v : Str) (d : Dom) : Ok (fun d' => Stays d d') (addProperty n k v d) := by
  unfold addProperty
  exact (internKey_keeps _ _).bind fun r h => (internVal_keeps _ _).bind fun r2 h2 => Ok.ok ⟨h2.1.trans h.1, h2.2.trans h.2⟩
theorem addBoolProperty_keeps (n : Nat) (k : Str) (d : Dom) : Ok (fun d' => Stays d d') (addBoolProperty n k d) := by
  unfold addBoolProperty
  exact (internBool_keeps _ _).bind fun r h => Ok.ok ⟨h.1, h.2⟩

theorem EdR.addProp (h : EdR V B T N d M a) {n : Nat} (hn : n < 65536) {rk rv : MStr} {k v : Str}
    (hk : Tok V rk k) (hv : Tok V rv v) :
    SimC V (fun _ => B + 304) (addProperty n k v d) (memAddProperty n rk rv M a) (EdP V (B + 304) T N) := by
  obtain ⟨own, x, hr, hB, hT, hN⟩ := h
  refine ((hr.shift.property hn (hk.shift x) (hv.shift x)).unshift (B := B + 304) ?_).mono (fun _ _ => le_refl _) fun r b e hR => ?_
  · exact (addProperty_cost n k v d).mono fun d' h' => by omega
  · have := addProperty_cost n k v d r e
    have h2 := addProperty_keeps n k v d r e
    exact EdR.of_domR hR (by omega) (by rw [h2.text]; exact hT) (by rw [h2.2]; exact hN)

theorem EdR.addBool (h : EdR V B T N d M a) {n : Nat} (hn : n < 65536) {rk : MStr} {k : Str}
    (hk : Tok V rk k) :
    SimC V (fun _ => B + 160) (addBoolProperty n k d) (memAddBoolProperty n rk M a) (EdP V (B + 160) T N) := by
  obtain ⟨own, x, hr, hB, hT, hN⟩ := h
  refine ((hr.shift.boolProperty hn (hk.shift x)).unshift (B := B + 160) ?_).mono (fun _ _ => le_refl _) fun r b e hR => ?_
  · exact (addBoolProperty_cost n k d).mono fun d' h' => by omega
  · have := addBoolProperty_cost n k d r e
    have h2 := addBoolProperty_keeps n k d r e
    exact EdR.of_domR hR (by omega) (by rw [h2.text]; exact hT) (by rw [h2.2]; exact hN)

theorem EdR.internVal (h : EdR V B T N d M a) {rk : MStr} {k : Str} (hk : Tok V rk k) :
    SimC V (fun _ => B + 136) (Flo.internVal k d) (memInternVal rk M a) (EdI V (B + 136) T N) := by
  obtain ⟨own, x, hr, hB, hT, hN⟩ := h
  refine ((hr.shift.internVal (hk.shift x)).unshift (B := B + 136) ?_).mono (fun _ _ => le_refl _) fun r b e hR => ?_
  · exact (internVal_cost k d).mono fun d' h' => by omega
  · have := internVal_cost k d r e
    have h4 := internVal_keeps k d r e
    obtain ⟨h1, h2, h3⟩ := hR
    exact ⟨h1, h2, EdR.of_domR (b := b.2) h3 (by omega) (by rw [h4.text]; exact hT) (by rw [h4.2]; exact hN)⟩

theorem createNode_keeps (t : NodeType) (d : Dom) : Ok (fun r => r.2.textLen = d.textLen ∧ r.2.nn = d.nn) (createNode t d) := by
  unfold createNode
  split
  · exact Ok.longjmp
  · refine Ok.ok ⟨?_, rfl⟩
    unfold Dom.textLen
    have : Node.textLen ⟨t, if t = .text then .text [] else .tag 0⟩ = 0 := by unfold Node.textLen; split <;> simp_all <;> split at * <;> simp_all
    simp [this]

theorem EdR.create (h : EdR V B T N d M a) (t : NodeType) :
    SimC V (fun _ => B + 104) (createNode t d) (memCreateNode t M a) (EdI V (B + 104) T N) := by
  obtain ⟨own, x, hr, hB, hT, hN⟩ := h
  refine ((hr.shift.createNode t).unshift (B := B + 104) ?_).mono (fun _ _ => le_refl _) fun r b e hR => ?_
  · exact (createNode_bytes t d).mono fun d' h' => by have := h'.2.1; omega
  · have := (createNode_bytes t d r e).2.1
    have h4 := createNode_keeps t d r e
    obtain ⟨h1, h2, h3⟩ := hR
    exact ⟨h1, h2, EdR.of_domR (b := b.2) h3 (by omega) (by rw [h4.1]; exact hT) (by rw [h4.2]; exact hN)⟩

theorem Dom.bytes_text (d : Dom) : 4 * (d.textLen : Int) + 24 * (d.nn.length : Int) ≤ d.bytes := by
  unfold Dom.bytes
  omega

/-- A junk read never hangs.  `D` bounds the DOM after the parse. -/
theorem EdR.parseExtra (h : EdR V B T N d M a) {junk : Nat → Out Bool} (hj : ∀ i, junk i ≠ .hang)
    {src : MStr} {s : Str} (hs : Tok V src s) {D : Int} (hD : d.bytes + 320 * (s.length : Int) ≤ 4 * D) :
    SimC V (fun _ => B + 320 * (s.length : Int)) (Flo.parseExtra junk s d) (memParseExtra junk src M a)
      (fun r q => q.ok = r.ok ∧ ∃ T' N', 4 * T' + 24 * N' ≤ 4 * D ∧ EdR V (B + 320 * (s.length : Int)) T' N' r.dom q.dom q.arena) := by
  obtain ⟨own, x, hr, hB, hT, hN⟩ := h
  refine ((parse_sim (hs.shift x) junk hr.shift (prev := errorID) (by decide) .nil).unshift (B := B + 320 * (s.length : Int)) ?_).mono
    (fun _ _ => le_refl _) fun r b e hR => ?_
  · exact (parse_cost hj s d errorID []).mono fun d' h' => by omega
  · have := parse_cost hj s d errorID [] r e
    have h5 := r.dom.bytes_text
    obtain ⟨h1, h2⟩ := hR
    exact ⟨h1, r.dom.textLen, r.dom.nn.length, by omega, EdR.of_domR (b := (b.dom, b.arena)) h2 (by omega) (le_refl _) (le_refl _)⟩

end Flo
