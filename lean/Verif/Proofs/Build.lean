import Verif.Proofs.ParseLink
import Verif.Proofs.Names
/-!
# The invariant of the parser's builder
-/
namespace Flo
open Spec

/-- Depth below `base` in a child-list function. -/
inductive DepC (ch : Nat → List Nat) (base : Nat) : Nat → Nat → Prop
  | base : DepC ch base base 0
  | child {p c k : Nat} : DepC ch base p k → c ∈ ch p → DepC ch base c (k + 1)

/-- A tag name that may have children. -/
def CanName (name : Str) : Prop :=
  isVoidElement name = false ∧ ∃ c rest, name = c :: rest ∧ isAlphabetical c = true

/-- The parser starts below the root (`createDom`) or with an empty nesting stack (fragments). -/
inductive Mode : List Nat → Nat → Nat → Prop
  | root : Mode [] 1 1
  | extra : Mode [0] 0 0

theorem Mode.lt2 {ext base startLen} (h : Mode ext base startLen) : base < 2 := by cases h <;> omega

/-- Nodes made by the parser. -/
def ParsedNode (d : Dom) (i : Nat) : Prop :=
  (∃ raw, textOf d i = some raw ∧ NText raw) ∨
  (∃ name, tagOf d i = some name ∧ (∀ c ∈ name, isTagEnd c = false) ∧
    ∃ c rest, name = c :: rest ∧ (isAlphabetical c = true ∨ c = cBang))

structure BInv (ext : List Nat) (base startLen : Nat) (d0 : Dom) (ch0 : Nat → List Nat) (b : BState)
    (ch : Nat → List Nat) : Prop where
  mode : Mode ext base startLen
  linked : LinkedD b.dom ch
  names : NamesOK b.dom
  old : d0.nodes <+: b.dom.nodes
  two : 2 ≤ d0.nodes.length
  path : RPath ch (b.stack.map (·.1) ++ ext)
  plast : (b.stack.map (·.1) ++ ext).getLast? = some base
  pnz : ∀ e ∈ b.stack, e.1 ≠ 0
  lenLe : b.stack.length ≤ 256
  prev : b.prev = (ch ((b.stack.map (·.1) ++ ext).headD 0)).getLastD ((b.stack.map (·.1) ++ ext).headD 0)
  order : pre b.dom.nodes.length ch base =
    base :: List.range' d0.nodes.length (b.dom.nodes.length - d0.nodes.length)
  frame : ∀ q, q ≠ base → q < d0.nodes.length → ch q = ch0 q
  new : ∀ i, d0.nodes.length ≤ i → i < b.dom.nodes.length → ParsedNode b.dom i
  stk : ∀ e ∈ b.stack, e.1 ≠ base → tagOf b.dom e.1 = some e.2 ∧ CanName e.2
  inner : ∀ p, d0.nodes.length ≤ p → ch p ≠ [] → ∃ name, tagOf b.dom p = some name ∧ CanName name
  depLe : ∀ n k, DepC ch base n k → k + startLen ≤ 257
  depTop : DepC ch base ((b.stack.map (·.1) ++ ext).headD 0) (b.stack.length - startLen)
  reg : d0.tagReg <+: b.dom.tagReg
  pairs : ∀ m, m < d0.nodes.length ∨ b.dom.nodes.length ≤ m → pairs b.dom m = pairs d0 m
  bools : ∀ m, m < d0.nodes.length ∨ b.dom.nodes.length ≤ m → bools b.dom m = bools d0 m
  cap : d0.nodes.length ≤ 65535 → b.dom.nodes.length ≤ 65535

theorem tagOf_grow {d d' : Dom} (hn : d.nodes <+: d'.nodes) (hr : d.tagReg <+: d'.tagReg) {i : Nat} {s : Str}
    (h : tagOf d i = some s) : tagOf d' i = some s := by
  obtain ⟨x, hx⟩ := hn
  obtain ⟨y, hy⟩ := hr
  unfold tagOf at h ⊢
  split at h
  · rename_i t ht
    have hi := lt_of_some ht
    rw [← hx, List.getElem?_append_left hi, ht]
    show Option.map (·.1) d'.tagReg[t]? = _
    cases hc : d.tagReg[t]? with
    | none => rw [hc] at h; simp at h
    | some v =>
      rw [hc] at h
      rw [← hy, List.getElem?_append_left (lt_of_some hc), hc]; exact h
  · cases h

theorem textOf_grow {d d' : Dom} (hn : d.nodes <+: d'.nodes) {i : Nat} {s : Str}
    (h : textOf d i = some s) : textOf d' i = some s := by
  obtain ⟨x, hx⟩ := hn
  unfold textOf at h ⊢
  split at h
  · rename_i t ht
    have hi := lt_of_some ht
    rw [← hx, List.getElem?_append_left hi, ht]; exact h
  · cases h

theorem ParsedNode.grow {d d' : Dom} (hn : d.nodes <+: d'.nodes) (hr : d.tagReg <+: d'.tagReg) {i : Nat}
    (h : ParsedNode d i) : ParsedNode d' i := by
  rcases h with ⟨raw, h1, h2⟩ | ⟨name, h1, h2⟩
  · exact Or.inl ⟨raw, textOf_grow hn h1, h2⟩
  · exact Or.inr ⟨name, tagOf_grow hn hr h1, h2⟩

/-- The link updates of the parser only touch the link tables. -/
theorem parserUpdate_same (new prev : Nat) (stack : List (Nat × Str)) (d : Dom) :
    ∃ fc pc nn, parserUpdateReferences new prev stack d = { d with fc := fc, pc := pc, nn := nn } := by
  unfold parserUpdateReferences
  split
  · cases stack with
    | nil => exact ⟨_, _, _, rfl⟩
    | cons e l =>
      dsimp only
      split <;> exact ⟨_, _, _, rfl⟩
  · exact ⟨_, _, _, rfl⟩

theorem getLastD_eq {l : List Nat} {a x : Nat} (h : l.getLast? = some x) : l.getLastD a = x := by
  rw [List.getLastD_eq_getLast?, h]; rfl

theorem mem_of_getLast {l : List Nat} {x : Nat} (h : l.getLast? = some x) : x ∈ l :=
  List.mem_of_mem_getLast? h

theorem rpath_mem {ch : Nat → List Nat} {P : Nat → Prop} (hstep : ∀ p c, P p → c ∈ ch p → P c) :
    ∀ (l : List Nat) {base : Nat}, RPath ch l → l.getLast? = some base → P base → ∀ x ∈ l, P x := by
  intro l
  induction l with
  | nil => intro base _ h; simp at h
  | cons a l ih =>
    intro base hr hb hP x hx
    cases l with
    | nil => simp at hb hx; subst hb hx; exact hP
    | cons y l =>
      rw [List.getLast?_cons_cons] at hb
      have := ih hr.2 hb hP
      rcases List.mem_cons.mp hx with rfl | hx
      · exact hstep y x (this y (by simp)) (mem_of_getLast hr.1)
      · exact this x hx

section
variable {ext : List Nat} {base startLen : Nat} {d0 : Dom} {ch0 : Nat → List Nat} {b : BState}
  {ch : Nat → List Nat}

/-- The node new nodes are hung below. -/
def topOf (ext : List Nat) (stack : List (Nat × Str)) : Nat := (stack.map (·.1) ++ ext).headD 0

theorem BInv.path_lt (h : BInv ext base startLen d0 ch0 b ch) :
    ∀ x ∈ b.stack.map (·.1) ++ ext, x < b.dom.nodes.length := by
  have h2 := h.linked.two
  have hb := h.mode.lt2
  exact rpath_mem (P := (· < b.dom.nodes.length)) (fun p c _ hc => (h.linked.range p c hc).2.2) _ h.path h.plast
    (by omega)

theorem BInv.top_mem (h : BInv ext base startLen d0 ch0 b ch) :
    topOf ext b.stack ∈ b.stack.map (·.1) ++ ext := by
  have := h.plast
  unfold topOf
  cases hl : b.stack.map (·.1) ++ ext with
  | nil => rw [hl] at this; simp at this
  | cons a l => simp

theorem BInv.top_lt (h : BInv ext base startLen d0 ch0 b ch) : topOf ext b.stack < b.dom.nodes.length :=
  h.path_lt _ h.top_mem

theorem BInv.le (h : BInv ext base startLen d0 ch0 b ch) : d0.nodes.length ≤ b.dom.nodes.length :=
  h.old.length_le

/-- Hanging the new node below the innermost open one. -/
theorem BInv.attach (h : BInv ext base startLen d0 ch0 b ch) {d' : Dom} {nd : Node} (g : Grew b.dom d' nd) :
    LinkedD (parserUpdateReferences b.dom.nodes.length b.prev b.stack d')
      (upd ch (topOf ext b.stack) (ch (topOf ext b.stack) ++ [b.dom.nodes.length])) := by
  have h2 := h.linked.two
  have hL : Linked d'.nodes.length d'.fc d'.pc d'.nn ch := by
    rw [g.nodes, g.fc, g.pc, g.nn]; exact h.linked.mono (by simp)
  have hF : Loose d'.nodes.length d'.pc d'.nn ch [b.dom.nodes.length] := by
    rw [g.nodes, g.pc, g.nn]; simpa using h.linked.fresh
  have hprev := h.prev
  have htop := h.top_lt
  cases hs : b.stack with
  | nil =>
    rw [hs] at hprev htop
    have hm := h.mode
    have hpl := h.plast
    rw [hs] at hpl
    have hext : ext = [0] ∧ base = 0 := by
      cases hm with
      | root => simp at hpl
      | extra => simp
    obtain ⟨rfl, rfl⟩ := hext
    have htop0 : topOf [0] [] = 0 := rfl
    rw [htop0]
    simp at hprev
    unfold parserUpdateReferences
    cases hc : (ch 0).getLast? with
    | none =>
      have hc0 : ch 0 = [] := by simpa using hc
      have hp0 : b.prev = 0 := by rw [hprev, hc0]; rfl
      rw [if_neg (by omega), hc0, List.nil_append]
      exact hL.float hF
    | some last =>
      have hp : b.prev = last := by rw [hprev]; simp [List.getLast?_eq_some_iff] at hc; obtain ⟨ys, e⟩ := hc; simp [e]
      have hlr := h.linked.range 0 last (mem_of_getLast hc)
      rw [if_pos (by omega), hp]
      exact hL.appendNext hF hc (by simp) (by intro c hc; simp at hc; omega)
        ⟨fun _ hr => hr, fun hp0 => absurd rfl hp0, fun _ _ hr => Or.inl hr⟩
  | cons e l =>
    obtain ⟨parent, tag⟩ := e
    rw [hs] at hprev htop
    have htop0 : topOf ext ((parent, tag) :: l) = parent := rfl
    have hprev : b.prev = (ch parent).getLastD parent := hprev
    rw [htop0] at htop ⊢
    have hpz : parent ≠ 0 := h.pnz (parent, tag) (by rw [hs]; simp)
    have hpc : PcExt parent [b.dom.nodes.length] (ch parent) d'.pc (d'.pc ++ [(parent, b.dom.nodes.length)]) := by
      refine ⟨fun r hr => by simp [hr], fun _ c hc => by simp at hc; simp [hc], ?_⟩
      intro x c hr
      rcases List.mem_append.mp hr with hr | hr
      · exact Or.inl hr
      · simp at hr; right; simp [hr, hpz]
    unfold parserUpdateReferences
    cases hc : (ch parent).getLast? with
    | none =>
      have hc0 : ch parent = [] := by simpa using hc
      have hp0 : b.prev = parent := by rw [hprev, hc0]; rfl
      rw [if_pos (by omega), hp0]
      dsimp only
      rw [if_pos rfl, hc0, List.nil_append]
      exact hL.appendFirst hF hpz hc0 (by simp) (by intro c hc; simp at hc; omega) hpc
    | some last =>
      have hp : b.prev = last := by rw [hprev]; exact getLastD_eq hc
      have hlr := h.linked.range parent last (mem_of_getLast hc)
      rw [if_pos (by omega), hp]
      dsimp only
      rw [if_neg (by omega)]
      exact hL.appendNext hF hc (by simp) (by intro c hc; simp at hc; omega) hpc

theorem rpath_upd_head {ch : Nat → List Nat} {N : Nat} (hu : Up N ch) {L : List Nat} :
    ∀ (l : List Nat) {x : Nat}, RPath ch (x :: l) → RPath (upd ch x L) (x :: l) := by
  have key : ∀ (l : List Nat) {y x : Nat}, RPath ch (y :: l) → y < x → RPath (upd ch x L) (y :: l) := by
    intro l
    induction l with
    | nil => intros; trivial
    | cons z l ih =>
      intro y x hr hyx
      have := (hu z y (mem_of_getLast hr.1)).1
      exact ⟨by rw [upd_ne (by omega)]; exact hr.1, ih hr.2 (by omega)⟩
  intro l x hr
  cases l with
  | nil => trivial
  | cons y l =>
    have := (hu y x (mem_of_getLast hr.1)).1
    exact ⟨by rw [upd_ne (by omega)]; exact hr.1, key l hr.2 this⟩

theorem DepC.mono {ch ch' : Nat → List Nat} {base : Nat} (h : ∀ p c, c ∈ ch p → c ∈ ch' p) {n k : Nat}
    (hd : DepC ch base n k) : DepC ch' base n k := by
  induction hd with
  | base => exact .base
  | child _ hc ih => exact .child ih (h _ _ hc)

theorem DepC.unique (hl : LinkedD b.dom ch) (hb : base < 2) {n k k' : Nat} (h : DepC ch base n k)
    (h' : DepC ch base n k') : k = k' := by
  induction h generalizing k' with
  | base =>
    cases h' with
    | base => rfl
    | child _ hc => have := hl.range _ _ hc; omega
  | child hp hc ih =>
    cases h' with
    | base => have := hl.range _ _ hc; omega
    | child hp' hc' =>
      have := hl.uniq _ _ _ hc hc'
      subst this
      rw [ih hp']

theorem upd_append_mem {ch : Nat → List Nat} {t N p c : Nat} (h : c ∈ ch p) : c ∈ upd ch t (ch t ++ [N]) p := by
  unfold upd; split
  · rename_i e; subst e; simp [h]
  · exact h

theorem pre_nodup {base N0 k : Nat} (h : base < N0) : (base :: List.range' N0 k).Nodup := by
  rw [List.nodup_cons]
  refine ⟨?_, List.nodup_range'⟩
  rw [List.mem_range'_1]; omega

/-- A new node below the innermost open one, not pushed on the stack. -/
theorem BInv.leaf (h : BInv ext base startLen d0 ch0 b ch) {d' : Dom} {nd : Node} (g : Grew b.dom d' nd)
    (hnew : ParsedNode d' b.dom.nodes.length) :
    BInv ext base startLen d0 ch0
      ⟨parserUpdateReferences b.dom.nodes.length b.prev b.stack d', b.stack, b.dom.nodes.length⟩
      (upd ch (topOf ext b.stack) (ch (topOf ext b.stack) ++ [b.dom.nodes.length])) := by
  have hat := h.attach g
  have hle := h.le
  have htop := h.top_lt
  have hb2 := h.mode.lt2
  have h2 := h.two
  obtain ⟨fc, pc, nn, he⟩ := parserUpdate_same b.dom.nodes.length b.prev b.stack d'
  have hup := h.linked.up
  have hup' : Up (b.dom.nodes.length + 1)
      (upd ch (topOf ext b.stack) (ch (topOf ext b.stack) ++ [b.dom.nodes.length])) := by
    have := hat.up
    rw [he] at this
    simpa [g.nodes] using this
  have hNe : ch b.dom.nodes.length = [] := by
    rw [List.eq_nil_iff_forall_not_mem]
    intro c hc
    have := h.linked.range _ _ hc; omega
  have hnl : (parserUpdateReferences b.dom.nodes.length b.prev b.stack d').nodes = b.dom.nodes ++ [nd] := by
    rw [he]; exact g.nodes
  have hpath' : RPath (upd ch (topOf ext b.stack) (ch (topOf ext b.stack) ++ [b.dom.nodes.length]))
      (b.stack.map (·.1) ++ ext) := by
    have hp := h.path
    cases hl : b.stack.map (·.1) ++ ext with
    | nil => trivial
    | cons x l =>
      have : topOf ext b.stack = x := by unfold topOf; rw [hl]; rfl
      rw [hl] at hp
      rw [this]; exact rpath_upd_head hup l hp
  have hnp : b.dom.nodes <+: (parserUpdateReferences b.dom.nodes.length b.prev b.stack d').nodes := by
    rw [hnl]; exact List.prefix_append _ _
  have hrp : b.dom.tagReg <+: (parserUpdateReferences b.dom.nodes.length b.prev b.stack d').tagReg := by
    rw [he]; exact g.tagReg
  have hDep : ∀ n k, DepC (upd ch (topOf ext b.stack) (ch (topOf ext b.stack) ++ [b.dom.nodes.length])) base n k →
      DepC ch base n k ∨ (n = b.dom.nodes.length ∧ DepC ch base (topOf ext b.stack) (k - 1) ∧ 0 < k) := by
    intro n k hd
    induction hd with
    | base => exact Or.inl .base
    | child hp hc ih =>
      rename_i p c k
      unfold upd at hc
      split at hc
      · rename_i hpt
        subst hpt
        have hp' : DepC ch base (topOf ext b.stack) k := by
          rcases ih with ih | ⟨e, _⟩
          · exact ih
          · omega
        rcases List.mem_append.mp hc with hc | hc
        · exact Or.inl (.child hp' hc)
        · simp at hc
          exact Or.inr ⟨hc, by simpa using hp', by omega⟩
      · rcases ih with ih | ⟨e, _⟩
        · exact Or.inl (.child ih hc)
        · subst e; rw [hNe] at hc; simp at hc
  refine
    { mode := h.mode, linked := hat, names := ?_, old := h.old.trans hnp, two := h.two, path := hpath',
      plast := h.plast, pnz := h.pnz, lenLe := h.lenLe, prev := ?_, order := ?_, frame := ?_, new := ?_, stk := ?_,
      inner := ?_, depLe := ?_, depTop := h.depTop.mono (fun _ _ => upd_append_mem), reg := h.reg.trans hrp,
      pairs := ?_, bools := ?_, cap := ?_ }
  · show NamesOK (parserUpdateReferences b.dom.nodes.length b.prev b.stack d')
    rw [he]; exact { g.names with }
  · show _ = (upd ch (topOf ext b.stack) _ (topOf ext b.stack)).getLastD _
    rw [upd_same]; simp
  · show pre (parserUpdateReferences b.dom.nodes.length b.prev b.stack d').nodes.length _ _ = _ :: List.range' _
      ((parserUpdateReferences b.dom.nodes.length b.prev b.stack d').nodes.length - _)
    rw [hnl, List.length_append, List.length_singleton]
    have key : pre (b.dom.nodes.length + 1)
        (upd ch (topOf ext b.stack) (ch (topOf ext b.stack) ++ [b.dom.nodes.length])) base
        = pre b.dom.nodes.length ch base ++ [b.dom.nodes.length] := by
      cases hl : b.stack.map (·.1) ++ ext with
      | nil => have := h.plast; rw [hl] at this; simp at this
      | cons x l =>
        have hx : topOf ext b.stack = x := by unfold topOf; rw [hl]; rfl
        have hp := h.path; have hpl := h.plast; have hlt := h.path_lt
        rw [hl] at hp hpl hlt
        rw [hx] at hup' htop ⊢
        exact pre_rpath hup hup' hNe l x hp hlt (mem_pre_self htop)
          (pre_rpath_base hup htop hup' hNe) base hpl (by rw [h.order]; exact pre_nodup (by omega))
    rw [key, h.order, List.cons_append]
    congr 1
    rw [show b.dom.nodes.length + 1 - d0.nodes.length = (b.dom.nodes.length - d0.nodes.length) + 1 by omega,
      List.range'_concat]
    congr 2; omega
  · intro q hq hlt
    by_cases ht : q = topOf ext b.stack
    · -- nodes of the path other than base are new
      exfalso
      have hge : ∀ x ∈ b.stack.map (·.1) ++ ext, x = base ∨ d0.nodes.length ≤ x := by
        refine rpath_mem (P := fun x => x ∈ pre b.dom.nodes.length ch base ∧ (x = base ∨ d0.nodes.length ≤ x)) ?_ _
          h.path h.plast ⟨mem_pre_self (by omega), Or.inl rfl⟩ |> fun hh x hx => (hh x hx).2
        intro p c ⟨hp, _⟩ hc
        have hmem : c ∈ pre b.dom.nodes.length ch base := by
          have hcl : ∀ q, q < b.dom.nodes.length → p ∈ pre b.dom.nodes.length ch q → c ∈ pre b.dom.nodes.length ch q := by
            refine down_induction ?_
            intro q hq ih hpq
            rw [pre_eq hup hq, List.mem_cons, List.mem_flatMap] at hpq ⊢
            rcases hpq with rfl | ⟨c', hc', hpq⟩
            · exact Or.inr ⟨c, hc, mem_pre_self (hup _ _ hc).2⟩
            · exact Or.inr ⟨c', hc', ih c' (hup _ _ hc').1 (hup _ _ hc').2 hpq⟩
          exact hcl base (by omega) hp
        refine ⟨hmem, Or.inr ?_⟩
        have hc2 := h.linked.range p c hc
        rw [h.order, List.mem_cons, List.mem_range'_1] at hmem
        rcases hmem with e | e
        · omega
        · omega
      rcases hge _ h.top_mem with e | e
      · exact hq (ht.trans e)
      · omega
    · rw [upd_ne ht]; exact h.frame q hq hlt
  · intro i h1 hi
    rw [show (BState.dom ⟨parserUpdateReferences b.dom.nodes.length b.prev b.stack d', b.stack,
        b.dom.nodes.length⟩).nodes = _ from hnl] at hi
    simp at hi
    by_cases hiN : i = b.dom.nodes.length
    · subst hiN
      exact hnew.grow (d' := parserUpdateReferences b.dom.nodes.length b.prev b.stack d')
        (by rw [he]) (by rw [he])
    · exact (h.new i h1 (by omega)).grow hnp hrp
  · intro e hm hne
    exact ⟨tagOf_grow hnp hrp (h.stk e hm hne).1, (h.stk e hm hne).2⟩
  · intro p hp hne
    by_cases ht : p = topOf ext b.stack
    · -- the top of the stack
      cases hs : b.stack with
      | nil =>
        have hm := h.mode
        have : topOf ext [] = ext.headD 0 := rfl
        rw [hs, this] at ht
        cases hm <;> simp at ht <;> omega
      | cons e l =>
        have : p = e.1 := by rw [ht, hs]; rfl
        have hst := h.stk e (by rw [hs]; simp) (by omega)
        rw [hs] at hnp hrp
        exact ⟨e.2, by rw [this]; exact tagOf_grow hnp hrp hst.1, hst.2⟩
    · rw [upd_ne ht] at hne
      obtain ⟨name, h3, h4⟩ := h.inner p hp hne
      exact ⟨name, tagOf_grow hnp hrp h3, h4⟩
  · intro n k hd
    rcases hDep n k hd with hd | ⟨rfl, hd, hk⟩
    · exact h.depLe n k hd
    · have := DepC.unique h.linked hb2 hd h.depTop
      have := h.lenLe
      have hm := h.mode
      cases hm with
      | root => omega
      | extra => omega
  · intro m hm
    have hm : m < d0.nodes.length ∨ b.dom.nodes.length + 1 ≤ m := by
      rcases hm with hm | hm
      · exact Or.inl hm
      · right
        have hm : (parserUpdateReferences b.dom.nodes.length b.prev b.stack d').nodes.length ≤ m := hm
        rw [he] at hm
        have hm : d'.nodes.length ≤ m := hm
        rw [g.nodes] at hm; simpa using hm
    show Spec.pairs (parserUpdateReferences b.dom.nodes.length b.prev b.stack d') m = _
    rw [he]
    show Spec.pairs d' m = _
    rw [g.pairs m (by omega)]; exact h.pairs m (by omega)
  · intro m hm
    have hm : m < d0.nodes.length ∨ b.dom.nodes.length + 1 ≤ m := by
      rcases hm with hm | hm
      · exact Or.inl hm
      · right
        have hm : (parserUpdateReferences b.dom.nodes.length b.prev b.stack d').nodes.length ≤ m := hm
        rw [he] at hm
        have hm : d'.nodes.length ≤ m := hm
        rw [g.nodes] at hm; simpa using hm
    show Spec.bools (parserUpdateReferences b.dom.nodes.length b.prev b.stack d') m = _
    rw [he]
    show Spec.bools d' m = _
    rw [g.bools m (by omega)]; exact h.bools m (by omega)
  · intro _
    show (parserUpdateReferences b.dom.nodes.length b.prev b.stack d').nodes.length ≤ _
    rw [he]
    show d'.nodes.length ≤ _
    have := g.room
    rw [g.nodes]; simp; omega

/-- Opening the last node. -/
theorem BInv.push (h : BInv ext base startLen d0 ch0 b ch) {N : Nat} {tag : Str}
    (hlast : (ch (topOf ext b.stack)).getLast? = some N) (hN : ch N = []) (hN0 : d0.nodes.length ≤ N)
    (hlen : b.stack.length < 256) (htag : tagOf b.dom N = some tag) (hcan : CanName tag) :
    BInv ext base startLen d0 ch0 ⟨b.dom, (N, tag) :: b.stack, N⟩ ch := by
  have hb2 := h.mode.lt2
  have h2 := h.two
  have hpl := h.plast
  have hlen1 : startLen ≤ b.stack.length := by
    have hm := h.mode
    cases hm with
    | root =>
      cases hs : b.stack with
      | nil => rw [hs] at hpl; simp at hpl
      | cons e l => simp
    | extra => omega
  refine { h with path := ?_, plast := ?_, pnz := ?_, lenLe := ?_, prev := ?_, stk := ?_, depTop := ?_ }
  · show RPath ch (N :: (b.stack.map (·.1) ++ ext))
    have hp := h.path
    unfold topOf at hlast
    cases hl : b.stack.map (·.1) ++ ext with
    | nil => trivial
    | cons x l => rw [hl] at hlast hp; exact ⟨hlast, hp⟩
  · show (N :: (b.stack.map (·.1) ++ ext)).getLast? = some base
    cases hl : b.stack.map (·.1) ++ ext with
    | nil => rw [hl] at hpl; simp at hpl
    | cons x l => rw [List.getLast?_cons_cons, ← hl]; exact hpl
  · intro e he
    rcases List.mem_cons.mp he with rfl | he
    · show N ≠ 0; omega
    · exact h.pnz e he
  · show b.stack.length + 1 ≤ 256; omega
  · show N = (ch N).getLastD N
    rw [hN]; rfl
  · intro e he hne
    rcases List.mem_cons.mp he with rfl | he
    · exact ⟨htag, hcan⟩
    · exact h.stk e he hne
  · show DepC ch base N (b.stack.length + 1 - startLen)
    rw [show b.stack.length + 1 - startLen = (b.stack.length - startLen) + 1 by omega]
    exact .child h.depTop (mem_of_getLast hlast)

/-- Closing the innermost open node. -/
theorem BInv.pop (h : BInv ext base startLen d0 ch0 b ch) {e : Nat × Str} {rest : List (Nat × Str)}
    (hs : b.stack = e :: rest) (hlen : b.stack.length > startLen) :
    BInv ext base startLen d0 ch0 ⟨b.dom, rest, e.1⟩ ch := by
  have hp := h.path
  have hpl := h.plast
  have hne : rest.map (·.1) ++ ext ≠ [] := by
    have hm := h.mode
    rw [hs] at hlen
    cases hm with
    | root =>
      cases rest with
      | nil => simp at hlen
      | cons => simp
    | extra => simp
  rw [hs] at hp hpl
  obtain ⟨y, l, hl⟩ : ∃ y l, rest.map (·.1) ++ ext = y :: l := by
    cases hl : rest.map (·.1) ++ ext with
    | nil => exact absurd hl hne
    | cons y l => exact ⟨y, l, rfl⟩
  have hp : RPath ch (e.1 :: (rest.map (·.1) ++ ext)) := hp
  have hpl : (e.1 :: (rest.map (·.1) ++ ext)).getLast? = some base := hpl
  rw [hl] at hp hpl
  refine { h with path := ?_, plast := ?_, pnz := ?_, lenLe := ?_, prev := ?_, stk := ?_, depTop := ?_ }
  · show RPath ch (rest.map (·.1) ++ ext)
    rw [hl]; exact hp.2
  · show (rest.map (·.1) ++ ext).getLast? = _
    rw [hl, ← hpl, List.getLast?_cons_cons]
  · exact fun x hx => h.pnz x (by rw [hs]; simp [hx])
  · show rest.length ≤ 256
    have := h.lenLe; rw [hs] at this; simp at this; omega
  · show e.1 = (ch ((rest.map (·.1) ++ ext).headD 0)).getLastD _
    rw [hl]; exact (getLastD_eq hp.1).symm
  · exact fun x hx => h.stk x (by rw [hs]; simp [hx])
  · show DepC ch base ((rest.map (·.1) ++ ext).headD 0) (rest.length - startLen)
    rw [hl]
    have ht := h.depTop
    rw [hs] at ht hlen
    have ht : DepC ch base e.1 (rest.length + 1 - startLen) := ht
    simp at hlen
    rw [show rest.length + 1 - startLen = (rest.length - startLen) + 1 by omega] at ht
    have hin := mem_of_getLast hp.1
    generalize rest.length - startLen = k at ht
    cases ht with
    | child hpar hc =>
      have := h.linked.uniq _ _ _ hc hin
      subst this; exact hpar

/-- What the parser leaves behind when it gives up: the offending element hangs at depth 256 (257 for fragments,
which have no root). -/
structure BNull (ext : List Nat) (base startLen : Nat) (d0 : Dom) (ch0 : Nat → List Nat) (d : Dom)
    (ch : Nat → List Nat) : Prop where
  linked : LinkedD d ch
  names : NamesOK d
  old : d0.nodes <+: d.nodes
  reg : d0.tagReg <+: d.tagReg
  frame : ∀ q, q ≠ base → q < d0.nodes.length → ch q = ch0 q
  deep : ∃ n, DepC ch base n (257 - startLen)
  new : ∀ i, d0.nodes.length ≤ i → i < d.nodes.length → ParsedNode d i
  order : pre d.nodes.length ch base = base :: List.range' d0.nodes.length (d.nodes.length - d0.nodes.length)
  pairs : ∀ m, m < d0.nodes.length ∨ d.nodes.length ≤ m → Spec.pairs d m = Spec.pairs d0 m
  bools : ∀ m, m < d0.nodes.length ∨ d.nodes.length ≤ m → Spec.bools d m = Spec.bools d0 m
  cap : d0.nodes.length ≤ 65535 → d.nodes.length ≤ 65535

/-- The child lists after an event. -/
def chAfter (ext : List Nat) (b : BState) (ch : Nat → List Nat) : Ev → Nat → List Nat
  | .close => ch
  | _ => upd ch (topOf ext b.stack) (ch (topOf ext b.stack) ++ [b.dom.nodes.length])

theorem BInv.step (h : BInv ext base startLen d0 ch0 b ch) {ev : Ev} (hev : EvOK ev) {r : BState ⊕ Dom}
    (hr : runEv startLen b ev = .ok r) :
    match r with
    | .inl b' => BInv ext base startLen d0 ch0 b' (chAfter ext b ch ev)
    | .inr d => ∃ ch', BNull ext base startLen d0 ch0 d ch' := by
  cases ev with
  | text raw =>
    simp only [runEv, Out.bind_eq_ok] at hr
    obtain ⟨⟨id, d'⟩, h1, h2⟩ := hr
    cases h2
    obtain ⟨rfl, g, _⟩ := parseTextElement_spec h.names h1
    exact h.leaf g (Or.inl ⟨raw, by simp [textOf, g.nodes], hev⟩)
  | elem tag can attrs =>
    simp only [runEv, Out.bind_eq_ok] at hr
    obtain ⟨⟨id, d'⟩, h1, h2⟩ := hr
    obtain ⟨rfl, t, ht, g, htag, _⟩ := buildElem_spec h.names h1
    obtain ⟨e1, ⟨c, rest, e2, e3⟩, e4⟩ := hev
    have htagOf : tagOf d' b.dom.nodes.length = some tag := by simpa [tagOf, g.nodes] using htag
    have hleaf := h.leaf g (Or.inr ⟨tag, htagOf, e4, c, rest, e2, by tauto⟩)
    by_cases hcan : can = true
    · subst hcan
      have hle := h.le
      have htop := h.top_lt
      have hne : topOf ext b.stack ≠ b.dom.nodes.length := by omega
      have hcanN : CanName tag := by
        refine ⟨?_, c, rest, e2, ?_⟩
        · cases hv : isVoidElement tag with
          | false => rfl
          | true => exact absurd (e1 hv) (by simp)
        · rcases e3 with e3 | e3
          · exact e3
          · simp at e3
      by_cases hl : b.stack.length ≥ maxDepth
      · simp [hl] at h2
        cases h2
        refine ⟨_, ⟨hleaf.linked, hleaf.names, hleaf.old, hleaf.reg, hleaf.frame, ?_, hleaf.new, hleaf.order,
          hleaf.pairs, hleaf.bools, hleaf.cap⟩⟩
        refine ⟨b.dom.nodes.length, ?_⟩
        have hlen := h.lenLe
        have hl : 256 ≤ b.stack.length := hl
        have hm := h.mode
        have hdt := hleaf.depTop
        rw [show (257 - startLen) = (b.stack.length - startLen) + 1 by cases hm <;> omega]
        refine .child hdt ?_
        show _ ∈ upd ch (topOf ext b.stack) _ (topOf ext b.stack)
        rw [upd_same]; simp
      · simp [hl] at h2
        cases h2
        refine hleaf.push (N := b.dom.nodes.length) ?_ ?_ hle (Nat.lt_of_not_le hl) ?_ hcanN
        · show (upd ch (topOf ext b.stack) _ (topOf ext b.stack)).getLast? = _
          rw [upd_same]; simp
        · rw [upd_ne (fun e => hne e.symm), List.eq_nil_iff_forall_not_mem]
          intro c hc
          have := h.linked.range _ _ hc; omega
        · show tagOf (parserUpdateReferences b.dom.nodes.length b.prev b.stack d') b.dom.nodes.length = some tag
          obtain ⟨fc, pc, nn, he⟩ := parserUpdate_same b.dom.nodes.length b.prev b.stack d'
          rw [he]; exact htagOf
    · have hcan : can = false := by simpa using hcan
      subst hcan
      simp at h2
      cases h2
      exact hleaf
  | close =>
    unfold runEv at hr
    dsimp only at hr
    split at hr
    · rename_i id tg rest hs
      split at hr
      · rename_i hl
        cases hr
        exact h.pop hs (by simpa [hs] using hl)
      · cases hr; exact h
    · cases hr; exact h

/-- The invariant at the end of a run of the builder. -/
theorem BInv.run {evs : List Ev} (h : BInv ext base startLen d0 ch0 b ch) (hev : ∀ e ∈ evs, EvOK e)
    {r : ParseRes} (hr : runEvs startLen evs b = .ok r) :
    (r.ok = true ∧ ∃ b' ch', b'.dom = r.dom ∧ BInv ext base startLen d0 ch0 b' ch') ∨
    (r.ok = false ∧ ∃ ch', BNull ext base startLen d0 ch0 r.dom ch') := by
  induction evs generalizing b ch with
  | nil => cases hr; exact Or.inl ⟨rfl, b, ch, rfl, h⟩
  | cons e es ih =>
    simp only [runEvs, Out.bind_eq_ok] at hr
    obtain ⟨x, h1, h2⟩ := hr
    have hst := h.step (hev e (by simp)) h1
    cases x with
    | inl b' =>
      exact ih hst (fun e he => hev e (by simp [he])) h2
    | inr d =>
      cases h2
      exact Or.inr ⟨rfl, hst⟩

end

/-- Where `createDom` starts. -/
theorem BInv.initRoot : BInv [] 1 1 Dom.init (fun _ => []) ⟨Dom.init, [(1, [])], 1⟩ (fun _ => []) where
  mode := .root
  linked := Linked.init
  names := NamesOK.init
  old := List.prefix_rfl
  two := by decide
  path := trivial
  plast := rfl
  pnz := by simp
  lenLe := by simp
  prev := rfl
  order := by rfl
  frame := fun _ _ _ => rfl
  new := by intro i h1 h2; simp [Dom.init] at h1 h2; omega
  stk := by simp
  inner := by simp
  depLe := by
    intro n k h
    cases h with
    | base => omega
    | child _ hc => simp at hc
  depTop := .base
  reg := List.prefix_rfl
  pairs := fun _ _ => rfl
  bools := fun _ _ => rfl
  cap := fun h => h

/-- Where a fragment parse starts: any linked DOM without floating nodes. -/
theorem BInv.initExtra {d : Dom} {ch : Nat → List Nat} (h : LinkedD d ch) (hn : NamesOK d) :
    BInv [0] 0 0 d (upd ch 0 []) ⟨d, [], 0⟩ (upd ch 0 []) where
  mode := .extra
  linked := h.forget.1
  names := hn
  old := List.prefix_rfl
  two := h.two
  path := trivial
  plast := rfl
  pnz := by simp
  lenLe := by simp
  prev := by simp
  order := by
    have h2 := h.two
    have hp : pre d.nodes.length (upd ch 0 []) 0 = [0] := by
      rw [pre_eq h.forget.1.up (by omega)]; simp
    show pre d.nodes.length _ 0 = 0 :: List.range' d.nodes.length (d.nodes.length - d.nodes.length)
    rw [hp]; simp
  frame := fun _ _ _ => rfl
  new := by intro i h1 h2; exact absurd h2 (by show ¬ i < d.nodes.length; omega)
  stk := by simp
  inner := by
    intro p hp hne
    have h2 := h.two
    exfalso
    apply hne
    rw [upd_ne (by omega), List.eq_nil_iff_forall_not_mem]
    intro c hc
    have := h.range _ _ hc; omega
  depLe := by
    intro n k h'
    have : ∀ n k, DepC (upd ch 0 []) 0 n k → n = 0 ∧ k = 0 := by
      intro n k hd
      induction hd with
      | base => exact ⟨rfl, rfl⟩
      | child _ hc ih => rw [ih.1] at hc; simp at hc
    have := this n k h'; omega
  depTop := .base
  reg := List.prefix_rfl
  pairs := fun _ _ => rfl
  bools := fun _ _ => rfl
  cap := fun h => h

end Flo
