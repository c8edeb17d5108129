import Verif.Proofs.Lex
import Verif.Spec.Forest
/-!
# The tree a list of events stands for, and the DOM the builder makes of it
-/
namespace Flo
open Spec

/-! ## The forest of an event list -/

/-- An element that is still open. -/
structure Frame where
  tag : Str
  ps : List (Str × Str)
  bs : List Str
  done : List Tree

/-- Open elements (innermost first) and finished top-level trees. -/
structure Zip where
  frames : List Frame
  bot : List Tree

def addTree : List Frame → List Tree → Tree → Zip
  | [], bot, t => ⟨[], bot ++ [t]⟩
  | f :: fs, bot, t => ⟨{ f with done := f.done ++ [t] } :: fs, bot⟩

def Zip.feed (z : Zip) : Ev → Zip
  | .text raw => addTree z.frames z.bot (.text raw)
  | .elem tag can as =>
    if can then ⟨⟨tag, attrPairs as, attrBools as, []⟩ :: z.frames, z.bot⟩
    else addTree z.frames z.bot (.elem tag (attrPairs as) (attrBools as) [])
  | .close =>
    match z.frames with
    | [] => z
    | f :: fs => addTree fs z.bot (.elem f.tag f.ps f.bs f.done)

/-- Close what is open. -/
def sealAll : List Frame → List Tree → List Tree → List Tree
  | [], ex, bot => bot ++ ex
  | f :: fs, ex, bot => sealAll fs [.elem f.tag f.ps f.bs (f.done ++ ex)] bot

def Zip.out (z : Zip) : List Tree := sealAll z.frames [] z.bot

def forest (evs : List Ev) : List Tree := (evs.foldl Zip.feed ⟨[], []⟩).out

/-! ## Representation with explicit child lists and bounds -/

mutual
def RepC (d : Dom) (ch : Nat → List Nat) (lo hi : Nat) : Tree → Nat → Prop
  | .text raw, n => lo < n ∧ n < hi ∧ textOf d n = some raw ∧ ch n = []
  | .elem tag ps bs ts, n => lo < n ∧ n < hi ∧ tagOf d n = some tag ∧ pairs d n = ps ∧ bools d n = bs ∧
      RepCL d ch lo hi ts (ch n)
def RepCL (d : Dom) (ch : Nat → List Nat) (lo hi : Nat) : List Tree → List Nat → Prop
  | [], [] => True
  | t :: ts, n :: ns => RepC d ch lo hi t n ∧ RepCL d ch lo hi ts ns
  | _, _ => False
end

/-- Two DOMs with child lists say the same about node `q`. -/
structure SameAt (d d' : Dom) (ch ch' : Nat → List Nat) (q : Nat) : Prop where
  ch : ch' q = ch q
  text : ∀ t, textOf d q = some t → textOf d' q = some t
  tag : ∀ t, tagOf d q = some t → tagOf d' q = some t
  pairs : pairs d' q = pairs d q
  bools : bools d' q = bools d q

mutual
theorem RepC.mono {d d' : Dom} {ch ch' : Nat → List Nat} {lo hi lo' hi' : Nat} (hlo : lo' ≤ lo) (hhi : hi ≤ hi')
    (h : ∀ q, lo < q → q < hi → SameAt d d' ch ch' q) : ∀ (t : Tree) (n : Nat), RepC d ch lo hi t n →
      RepC d' ch' lo' hi' t n
  | .text raw, n, hr => by
    simp only [RepC] at hr ⊢
    obtain ⟨h1, h2, h3, h4⟩ := hr
    have := h n h1 h2
    exact ⟨by omega, by omega, this.text _ h3, by rw [this.ch, h4]⟩
  | .elem tag ps bs ts, n, hr => by
    simp only [RepC] at hr ⊢
    obtain ⟨h1, h2, h3, h4, h5, h6⟩ := hr
    have := h n h1 h2
    refine ⟨by omega, by omega, this.tag _ h3, by rw [this.pairs, h4], by rw [this.bools, h5], ?_⟩
    rw [this.ch]
    exact RepCL.mono hlo hhi h ts _ h6
theorem RepCL.mono {d d' : Dom} {ch ch' : Nat → List Nat} {lo hi lo' hi' : Nat} (hlo : lo' ≤ lo) (hhi : hi ≤ hi')
    (h : ∀ q, lo < q → q < hi → SameAt d d' ch ch' q) : ∀ (ts : List Tree) (ns : List Nat), RepCL d ch lo hi ts ns →
      RepCL d' ch' lo' hi' ts ns
  | [], [], _ => trivial
  | [], _ :: _, hr => by simp [RepCL] at hr
  | _ :: _, [], hr => by simp [RepCL] at hr
  | t :: ts, n :: ns, hr => by
    simp only [RepCL] at hr ⊢
    exact ⟨RepC.mono hlo hhi h t n hr.1, RepCL.mono hlo hhi h ts ns hr.2⟩
end

theorem SameAt.refl (d : Dom) (ch : Nat → List Nat) (q : Nat) : SameAt d d ch ch q :=
  ⟨rfl, fun _ h => h, fun _ h => h, rfl, rfl⟩

theorem RepCL.append {d : Dom} {ch : Nat → List Nat} {lo hi : Nat} : ∀ {ts : List Tree} {ns : List Nat} {ts' ns'},
    RepCL d ch lo hi ts ns → RepCL d ch lo hi ts' ns' → RepCL d ch lo hi (ts ++ ts') (ns ++ ns') := by
  intro ts
  induction ts with
  | nil => intro ns ts' ns' h h'; cases ns with
    | nil => exact h'
    | cons => simp [RepCL] at h
  | cons t ts ih =>
    intro ns ts' ns' h h'
    cases ns with
    | nil => simp [RepCL] at h
    | cons n ns =>
      simp only [RepCL, List.cons_append] at h ⊢
      exact ⟨h.1, ih h.2 h'⟩

/-- The nodes on the path from the innermost open element to the base represent the frames. -/
def ZAt (d : Dom) (ch : Nat → List Nat) : List Nat → List Frame → List Tree → List Nat → Nat → Prop
  | [x], [], bot, tail, hi => x < hi ∧ ∃ ids, ch x = ids ++ tail ∧ RepCL d ch x hi bot ids
  | x :: y :: l, f :: fs, bot, tail, hi => x < hi ∧ y < x ∧ tagOf d x = some f.tag ∧ pairs d x = f.ps ∧
      bools d x = f.bs ∧ (∃ ids, ch x = ids ++ tail ∧ RepCL d ch x hi f.done ids) ∧ ZAt d ch (y :: l) fs bot [x] x
  | _, _, _, _, _ => False

theorem ZAt.mono {d d' : Dom} {ch ch' : Nat → List Nat} : ∀ {path : List Nat} {fs : List Frame} {bot : List Tree}
    {tail : List Nat} {hi : Nat}, (∀ q, q < hi → SameAt d d' ch ch' q) → ZAt d ch path fs bot tail hi →
    ZAt d' ch' path fs bot tail hi := by
  intro path
  induction path with
  | nil => intro fs bot tail hi _ h; simp [ZAt] at h
  | cons x l ih =>
    intro fs bot tail hi hs h
    cases l with
    | nil =>
      cases fs with
      | cons => simp [ZAt] at h
      | nil =>
        simp only [ZAt] at h ⊢
        obtain ⟨h1, ids, h2, h3⟩ := h
        exact ⟨h1, ids, by rw [(hs x h1).ch, h2], h3.mono (Nat.le_refl _) (Nat.le_refl _) (fun q _ hq => hs q hq)⟩
    | cons y l =>
      cases fs with
      | nil => simp [ZAt] at h
      | cons f fs =>
        simp only [ZAt] at h ⊢
        obtain ⟨h1, h1', h2, h3, h4, ⟨ids, h5, h6⟩, h7⟩ := h
        have hx := hs x h1
        refine ⟨h1, h1', hx.tag _ h2, by rw [hx.pairs, h3], by rw [hx.bools, h4],
          ⟨ids, by rw [hx.ch, h5], h6.mono (Nat.le_refl _) (Nat.le_refl _) (fun q _ hq => hs q hq)⟩, ?_⟩
        exact ih (fun q hq => hs q (by omega)) h7

/-- Hanging a new node below the innermost open element. -/
theorem ZAt.hang {d d' : Dom} {ch : Nat → List Nat} {x : Nat} {l : List Nat} {fs : List Frame} {bot : List Tree}
    {N : Nat} (hs : ∀ q, q < N → SameAt d d' ch ch q) (h : ZAt d ch (x :: l) fs bot [] N) :
    ZAt d' (upd ch x (ch x ++ [N])) (x :: l) fs bot [N] N := by
  have hother : ∀ q, q < N → q ≠ x → SameAt d d' ch (upd ch x (ch x ++ [N])) q := by
    intro q hq hne
    have := hs q hq
    exact ⟨by rw [upd_ne hne], this.text, this.tag, this.pairs, this.bools⟩
  cases l with
  | nil =>
    cases fs with
    | cons => simp [ZAt] at h
    | nil =>
      simp only [ZAt] at h ⊢
      obtain ⟨h1, ids, h2, h3⟩ := h
      refine ⟨h1, ids, by rw [upd_same, h2]; simp,
        h3.mono (Nat.le_refl _) (Nat.le_refl _) (fun q hq hq' => hother q hq' (by omega))⟩
  | cons y l =>
    cases fs with
    | nil => simp [ZAt] at h
    | cons f fs =>
      simp only [ZAt] at h ⊢
      obtain ⟨h1, h1', h2, h3, h4, ⟨ids, h5, h6⟩, h7⟩ := h
      have hx := hs x h1
      refine ⟨h1, h1', hx.tag _ h2, by rw [hx.pairs, h3], by rw [hx.bools, h4],
          ⟨ids, by rw [upd_same, h5]; simp,
           h6.mono (Nat.le_refl _) (Nat.le_refl _) (fun q hq hq' => hother q hq' (by omega))⟩, ?_⟩
      exact h7.mono (fun q hq => hother q (by omega) (by omega))

/-- The last child of the innermost open element is a finished tree. -/
theorem ZAt.absorb {d : Dom} {ch : Nat → List Nat} {x n hi : Nat} {l : List Nat} {fs : List Frame} {bot : List Tree}
    {t : Tree} (hn : n < hi) (h : ZAt d ch (x :: l) fs bot [n] n) (ht : RepC d ch x hi t n) :
    ZAt d ch (x :: l) (addTree fs bot t).frames (addTree fs bot t).bot [] hi := by
  cases l with
  | nil =>
    cases fs with
    | cons => simp [ZAt] at h
    | nil =>
      simp only [ZAt, addTree] at h ⊢
      obtain ⟨h1, ids, h2, h3⟩ := h
      refine ⟨by omega, ids ++ [n], by rw [h2]; simp, ?_⟩
      refine RepCL.append (h3.mono (Nat.le_refl _) (by omega) (fun q _ _ => SameAt.refl _ _ _)) ?_
      simp only [RepCL]; exact ⟨ht, trivial⟩
  | cons y l =>
    cases fs with
    | nil => simp [ZAt] at h
    | cons f fs =>
      simp only [ZAt, addTree] at h ⊢
      obtain ⟨h1, h1', h2, h3, h4, ⟨ids, h5, h6⟩, h7⟩ := h
      refine ⟨by omega, h1', h2, h3, h4, ⟨ids ++ [n], by rw [h5]; simp, ?_⟩, h7⟩
      refine RepCL.append (h6.mono (Nat.le_refl _) (by omega) (fun q _ _ => SameAt.refl _ _ _)) ?_
      simp only [RepCL]; exact ⟨ht, trivial⟩

theorem ZAt.sealAll {d : Dom} {ch : Nat → List Nat} {N : Nat} : ∀ {path : List Nat} {fs : List Frame} {bot ex : List Tree}
    {tail : List Nat} {hi x base : Nat}, path.head? = some x → path.getLast? = some base → hi ≤ N →
    ZAt d ch path fs bot tail hi → RepCL d ch x N ex tail →
    RepCL d ch base N (Flo.sealAll fs ex bot) (ch base) := by
  intro path
  induction path with
  | nil => intro fs bot ex tail hi x base h; simp at h
  | cons y l ih =>
    intro fs bot ex tail hi x base hx hb hN h hex
    simp at hx; subst hx
    cases l with
    | nil =>
      simp at hb; subst hb
      cases fs with
      | cons => simp [ZAt] at h
      | nil =>
        simp only [ZAt] at h
        obtain ⟨h1, ids, h2, h3⟩ := h
        rw [h2]
        exact RepCL.append (h3.mono (Nat.le_refl _) hN (fun q _ _ => SameAt.refl _ _ _)) hex
    | cons z l =>
      cases fs with
      | nil => simp [ZAt] at h
      | cons f fs =>
        simp only [ZAt] at h
        obtain ⟨h1, h1', h2, h3, h4, ⟨ids, h5, h6⟩, h7⟩ := h
        rw [List.getLast?_cons_cons] at hb
        show RepCL d ch base N (Flo.sealAll fs _ bot) (ch base)
        refine ih (x := z) rfl hb (by omega) h7 ?_
        simp only [RepCL, RepC]
        refine ⟨⟨h1', by omega, h2, h3, h4, ?_⟩, trivial⟩
        rw [h5]
        refine RepCL.append (h6.mono (by omega) hN (fun q _ _ => SameAt.refl _ _ _)) ?_
        exact hex.mono (by omega) (Nat.le_refl _) (fun q _ _ => SameAt.refl _ _ _)

theorem ZAt.frames_len {d : Dom} {ch : Nat → List Nat} : ∀ {path : List Nat} {fs : List Frame} {bot : List Tree}
    {tail : List Nat} {hi : Nat}, ZAt d ch path fs bot tail hi → path.length = fs.length + 1 := by
  intro path
  induction path with
  | nil => intro fs bot tail hi h; simp [ZAt] at h
  | cons x l ih =>
    intro fs bot tail hi h
    cases l with
    | nil => cases fs with
      | cons => simp [ZAt] at h
      | nil => simp
    | cons y l =>
      cases fs with
      | nil => simp [ZAt] at h
      | cons f fs =>
        simp only [ZAt] at h
        have := ih h.2.2.2.2.2.2
        simp at this ⊢; omega

/-! ## The builder makes the forest -/

section
variable {ext : List Nat} {base startLen : Nat} {d0 : Dom} {ch0 : Nat → List Nat} {b : BState}
  {ch : Nat → List Nat}

/-- The builder state represents the zipper. -/
def ZRep (ext : List Nat) (b : BState) (ch : Nat → List Nat) (z : Zip) : Prop :=
  ZAt b.dom ch (b.stack.map (·.1) ++ ext) z.frames z.bot [] b.dom.nodes.length

theorem Grew.sameAt {d d' : Dom} {nd : Node} (g : Grew d d' nd) (ch : Nat → List Nat) (fc pc nn : List Row) {q : Nat}
    (hq : q < d.nodes.length) : SameAt d { d' with fc := fc, pc := pc, nn := nn } ch ch q := by
  have hn : d.nodes <+: d'.nodes := by rw [g.nodes]; exact List.prefix_append _ _
  exact ⟨rfl, fun t h => textOf_grow hn h, fun t h => tagOf_grow hn g.tagReg h, g.pairs q (by omega),
    g.bools q (by omega)⟩

theorem BInv.chNew (h : BInv ext base startLen d0 ch0 b ch) : ch b.dom.nodes.length = [] := by
  rw [List.eq_nil_iff_forall_not_mem]
  intro c hc
  have := h.linked.range _ _ hc; omega

theorem ZRep.step (h : BInv ext base startLen d0 ch0 b ch) {z : Zip} (hz : ZRep ext b ch z)
    (hfresh : ∀ m, d0.nodes.length ≤ m → pairs d0 m = [] ∧ bools d0 m = [])
    {ev : Ev} {b' : BState} (hr : runEv startLen b ev = .ok (.inl b')) :
    ZRep ext b' (chAfter ext b ch ev) (z.feed ev) := by
  have hle := h.le
  have htop := h.top_lt
  have hne : topOf ext b.stack ≠ b.dom.nodes.length := by omega
  have hpn : pairs b.dom b.dom.nodes.length = [] := by
    rw [h.pairs _ (Or.inr (Nat.le_refl _))]; exact (hfresh _ hle).1
  have hbn : bools b.dom b.dom.nodes.length = [] := by
    rw [h.bools _ (Or.inr (Nat.le_refl _))]; exact (hfresh _ hle).2
  obtain ⟨x, l, hpath⟩ : ∃ x l, b.stack.map (·.1) ++ ext = x :: l := by
    cases hl : b.stack.map (·.1) ++ ext with
    | nil => have := h.plast; rw [hl] at this; simp at this
    | cons a l => exact ⟨a, l, rfl⟩
  have hx : topOf ext b.stack = x := by unfold topOf; rw [hpath]; rfl
  have hz' : ZAt b.dom ch (x :: l) z.frames z.bot [] b.dom.nodes.length := by
    rw [← hpath]; exact hz
  cases ev with
  | text raw =>
    simp only [runEv, Out.bind_eq_ok] at hr
    obtain ⟨⟨id, d'⟩, h1, h2⟩ := hr
    cases h2
    obtain ⟨rfl, g, _⟩ := parseTextElement_spec h.names h1
    obtain ⟨fc, pc, nn, he⟩ := parserUpdate_same b.dom.nodes.length b.prev b.stack d'
    have hang := hz'.hang (d' := parserUpdateReferences b.dom.nodes.length b.prev b.stack d')
      (fun q hq => by rw [he]; exact g.sameAt ch fc pc nn hq)
    unfold ZRep
    dsimp only [chAfter, Zip.feed]
    rw [hpath, hx]
    have hlen : (parserUpdateReferences b.dom.nodes.length b.prev b.stack d').nodes.length = b.dom.nodes.length + 1 := by
      rw [he]; simp [g.nodes]
    rw [hlen]
    refine hang.absorb (by omega) ?_
    simp only [RepC]
    refine ⟨by omega, by omega, ?_, ?_⟩
    · rw [he]; simp [textOf, g.nodes]
    · rw [upd_ne (by omega)]; exact h.chNew
  | elem tag can attrs =>
    simp only [runEv, Out.bind_eq_ok] at hr
    obtain ⟨⟨id, d'⟩, h1, h2⟩ := hr
    obtain ⟨rfl, t, ht, g, htag, hp, hb⟩ := buildElem_spec h.names h1
    have htagOf : tagOf d' b.dom.nodes.length = some tag := by simpa [tagOf, g.nodes] using htag
    obtain ⟨fc, pc, nn, he⟩ := parserUpdate_same b.dom.nodes.length b.prev b.stack d'
    have hang := hz'.hang (d' := parserUpdateReferences b.dom.nodes.length b.prev b.stack d')
      (fun q hq => by rw [he]; exact g.sameAt ch fc pc nn hq)
    have hlen : (parserUpdateReferences b.dom.nodes.length b.prev b.stack d').nodes.length = b.dom.nodes.length + 1 := by
      rw [he]; simp [g.nodes]
    have e1 : tagOf (parserUpdateReferences b.dom.nodes.length b.prev b.stack d') b.dom.nodes.length = some tag := by
      rw [he]; exact htagOf
    have e2 : pairs (parserUpdateReferences b.dom.nodes.length b.prev b.stack d') b.dom.nodes.length = attrPairs attrs := by
      rw [he]; show pairs d' _ = _; rw [hp, hpn]; rfl
    have e3 : bools (parserUpdateReferences b.dom.nodes.length b.prev b.stack d') b.dom.nodes.length = attrBools attrs := by
      rw [he]; show bools d' _ = _; rw [hb, hbn]; rfl
    have e4 : upd ch x (ch x ++ [b.dom.nodes.length]) b.dom.nodes.length = [] := by
      rw [upd_ne (by omega)]; exact h.chNew
    by_cases hcan : can = true
    · subst hcan
      by_cases hl : b.stack.length ≥ maxDepth
      · simp [hl] at h2
      · simp [hl] at h2
        cases h2
        unfold ZRep
        simp only [chAfter, Zip.feed, if_true, List.map_cons, List.cons_append]
        rw [hpath, hx, hlen]
        simp only [ZAt]
        exact ⟨by omega, by omega, e1, e2, e3, ⟨[], by rw [e4]; rfl, trivial⟩, hang⟩
    · have hcan : can = false := by simpa using hcan
      subst hcan
      simp at h2
      cases h2
      unfold ZRep
      simp only [chAfter, Zip.feed, Bool.false_eq_true, if_false]
      rw [hpath, hx, hlen]
      refine hang.absorb (by omega) ?_
      simp only [RepC]
      exact ⟨by omega, by omega, e1, e2, e3, by rw [e4]; trivial⟩
  | close =>
    have hfl := hz.frames_len
    have hm := h.mode
    have hflen : b.stack.length = z.frames.length + startLen := by
      cases hm <;> simp at hfl <;> omega
    unfold runEv at hr
    dsimp only at hr
    unfold ZRep
    simp only [chAfter, Zip.feed]
    cases hst : b.stack with
    | nil =>
      rw [hst] at hr
      cases hr
      have : z.frames = [] := by rw [hst] at hflen; simp at hflen; exact List.length_eq_zero_iff.mp (by omega)
      rw [this]
      exact hz
    | cons e rest =>
      obtain ⟨id, tg⟩ := e
      rw [hst] at hr hflen
      dsimp only at hr
      split at hr
      · rename_i hl
        cases hr
        cases hfr : z.frames with
        | nil => rw [hfr] at hflen; simp at hflen hl; omega
        | cons f fs =>
          rw [hst] at hpath
          simp at hpath
          obtain ⟨rfl, hpl⟩ := hpath
          rw [hfr] at hz'
          dsimp only
          cases l with
          | nil => simp [ZAt] at hz'
          | cons y l =>
            simp only [ZAt] at hz'
            obtain ⟨h1, h1', h2, h3, h4, ⟨ids, h5, h6⟩, h7⟩ := hz'
            rw [hpl]
            refine h7.absorb h1 ?_
            simp only [RepC]
            refine ⟨h1', h1, h2, h3, h4, ?_⟩
            rw [h5, List.append_nil]
            exact h6.mono (by omega) (Nat.le_refl _) (fun q _ _ => SameAt.refl _ _ _)
      · rename_i hl
        cases hr
        have : z.frames = [] := by
          cases hfr : z.frames with
          | nil => rfl
          | cons f fs => rw [hfr] at hflen; simp at hflen hl; omega
        rw [this]
        exact hz

theorem ZRep.run (h : BInv ext base startLen d0 ch0 b ch) {z : Zip} (hz : ZRep ext b ch z)
    (hfresh : ∀ m, d0.nodes.length ≤ m → pairs d0 m = [] ∧ bools d0 m = []) {evs : List Ev}
    (hev : ∀ e ∈ evs, EvOK e) {d : Dom} (hr : runEvs startLen evs b = .ok ⟨true, d⟩) :
    ∃ b' ch', b'.dom = d ∧ BInv ext base startLen d0 ch0 b' ch' ∧
      RepCL d ch' base d.nodes.length (evs.foldl Zip.feed z).out (ch' base) := by
  induction evs generalizing b ch z with
  | nil =>
    cases hr
    refine ⟨b, ch, rfl, h, ?_⟩
    unfold ZRep at hz
    obtain ⟨x, l, hpath⟩ : ∃ x l, b.stack.map (·.1) ++ ext = x :: l := by
      cases hl : b.stack.map (·.1) ++ ext with
      | nil => have := h.plast; rw [hl] at this; simp at this
      | cons a l => exact ⟨a, l, rfl⟩
    exact hz.sealAll (x := x) (by rw [hpath]; rfl) h.plast (Nat.le_refl _) trivial
  | cons e es ih =>
    simp only [runEvs, Out.bind_eq_ok] at hr
    obtain ⟨x, h1, h2⟩ := hr
    have hst := h.step (hev e (by simp)) h1
    cases x with
    | inl b' => exact ih hst (hz.step h hfresh h1) (fun e he => hev e (by simp [he])) h2
    | inr d => cases h2

end

mutual
theorem RepC.rep {d : Dom} {ch : Nat → List Nat} {lo hi : Nat} (h : ∀ q, q ≠ 0 → kids d q = ch q) :
    ∀ (t : Tree) (n : Nat), RepC d ch lo hi t n → Rep d t n
  | .text raw, n, hr => by
    simp only [RepC, Rep] at hr ⊢
    obtain ⟨h1, h2, h3, h4⟩ := hr
    exact ⟨h3, by rw [h n (by omega), h4]⟩
  | .elem tag ps bs ts, n, hr => by
    simp only [RepC, Rep] at hr ⊢
    obtain ⟨h1, h2, h3, h4, h5, h6⟩ := hr
    refine ⟨h3, h4, h5, ?_⟩
    rw [h n (by omega)]
    exact RepCL.rep h ts _ h6
theorem RepCL.rep {d : Dom} {ch : Nat → List Nat} {lo hi : Nat} (h : ∀ q, q ≠ 0 → kids d q = ch q) :
    ∀ (ts : List Tree) (ns : List Nat), RepCL d ch lo hi ts ns → RepL d ts ns
  | [], [], _ => trivial
  | [], _ :: _, hr => by simp [RepCL] at hr
  | _ :: _, [], hr => by simp [RepCL] at hr
  | t :: ts, n :: ns, hr => by
    simp only [RepCL, RepL] at hr ⊢
    exact ⟨RepC.rep h t n hr.1, RepCL.rep h ts ns hr.2⟩
end

/-! ## Lexed events are well formed -/

theorem lexAttrs_can {s : Str} : ∀ {f idx : Nat} {can : Bool} {r : Nat × Bool × List Attr},
    lexAttrs s f idx can = .ok r → can = false → r.2.1 = false := by
  intro f
  induction f with
  | zero => intro _ _ _ h; cases h
  | succ f ih =>
    intro idx can r h hcan
    unfold lexAttrs at h
    cases hs : s[idx]? with
    | none => rw [hs] at h; cases h; exact hcan
    | some ch =>
      rw [hs] at h
      dsimp only at h
      split at h
      · cases h; exact hcan
      · split at h
        · exact ih h rfl
        · split at h
          · simp only [Out.bind_eq_ok] at h
            obtain ⟨⟨key, i⟩, h1, h⟩ := h
            dsimp only at h
            split at h
            · simp only [Out.bind_eq_ok] at h
              obtain ⟨⟨v, k⟩, h2, ⟨a, b, c⟩, h3, h⟩ := h
              cases h
              have := ih h3 hcan
              exact this
            · simp only [Out.bind_eq_ok] at h
              obtain ⟨⟨a, b, c⟩, h3, h⟩ := h
              cases h
              have := ih h3 hcan
              exact this
          · exact ih h hcan

theorem lexElem_evOK {s : Str} {idx : Nat} {c : UInt8} (hc : s[idx]? = some c)
    (ha : isAlphabetical c = true ∨ c = cBang) {tag : Str} {can : Bool} {as : List Attr} {j : Nat}
    (h : lexElem s idx (c == cBang) = .ok (tag, can, as, j)) : EvOK (.elem tag can as) := by
  have hte : isTagEnd c = false := by
    rcases ha with h | h
    · cases ht : isTagEnd c with
      | false => rfl
      | true =>
        simp [isTagEnd, isFormatting] at ht
        rcases ht with (rfl | rfl) | (rfl | rfl) | rfl <;> simp [isAlphabetical] at h <;> revert h <;> decide
    · subst h; decide
  have hslash : c ≠ cSlash := by
    rcases ha with h | h
    · rintro rfl; revert h; decide
    · subst h; decide
  simp only [lexElem, Out.bind_eq_ok] at h
  obtain ⟨sl, h1, t, h2, ⟨j', c', as'⟩, h3, h4⟩ := h
  cases h4
  have hilt := lt_of_getElem? hc
  have hgt : idx < scanUntil isTagEnd (s.drop idx) idx := scanUntil_gt hc hte
  have hle : scanUntil isTagEnd (s.drop idx) idx ≤ max idx s.length := scanWhile_le _ _ _
  have htw : (s.drop idx).take (scanUntil isTagEnd (s.drop idx) idx - idx) =
      (s.drop idx).takeWhile (fun c => !isTagEnd c) := by
    unfold scanUntil
    rw [scanWhile_eq, Nat.add_sub_cancel_left]
    exact takeWhile_eq_take _
  generalize hi : scanUntil isTagEnd (s.drop idx) idx = i at *
  have hsl : sl = true → idx + 1 < i := by
    intro hsl
    unfold tagSlashed at h1
    split at h1
    · have e : ((i : Int) - 1) = ((i - 1 : Nat) : Int) := by omega
      rw [e, charAt_ok (by omega)] at h1
      simp only [Out.bind_ok] at h1
      cases h1
      by_contra hcon
      have hid : i - 1 = idx := by omega
      obtain ⟨hx, hy⟩ := List.getElem?_eq_some_iff.mp hc
      simp only [hid] at hsl
      rw [hy] at hsl
      exact hslash (by simpa using hsl)
    · cases h1; cases hsl
  have hall : ∀ x ∈ (s.drop idx).takeWhile (fun c => !isTagEnd c), isTagEnd x = false := by
    intro x hx
    simpa using mem_takeWhile hx
  have htag : (∃ rest, tag = c :: rest) ∧ (∀ x ∈ tag, isTagEnd x = false) := by
    obtain ⟨k, hk1, hk2, hk3⟩ : ∃ k : Nat, 1 ≤ k ∧ k ≤ i - idx ∧
        (if sl = true then (i : Int) - idx - 1 else (i : Int) - idx) = k := by
      split
      · rename_i hh
        have := hsl hh
        exact ⟨i - idx - 1, by omega, by omega, by omega⟩
      · exact ⟨i - idx, by omega, by omega, by omega⟩
    rw [hk3, subStr_ok (by omega)] at h2
    cases h2
    refine ⟨?_, ?_⟩
    · rw [drop_cons hc]
      obtain ⟨m, rfl⟩ : ∃ m, k = m + 1 := ⟨k - 1, by omega⟩
      exact ⟨_, rfl⟩
    · intro x hx
      apply hall
      rw [← htw]
      exact (List.take_subset_take_left _ hk2) hx
  obtain ⟨⟨rest, ht2⟩, ht3⟩ := htag
  have hcan := lexAttrs_can h3
  refine ⟨?_, ⟨c, rest, ht2, ?_⟩, ht3⟩
  · intro hv
    apply hcan; simp [hv]
  · rcases ha with h | h
    · exact Or.inl h
    · right
      refine ⟨h, hcan ?_⟩
      subst h
      simp

theorem lexText_evOK {s tag : Str} {idx : Nat} (hts : TextStart s idx false) {oe : Option Ev} {i : Nat}
    (h : lexText s tag idx = .ok (oe, i)) : (∀ ev, oe = some ev → EvOK ev) ∧ AtTok s i := by
  simp only [lexText, Out.bind_eq_ok] at h
  obtain ⟨⟨raw, j⟩, h1, h⟩ := h
  cases h
  refine ⟨?_, atTok_skipSpace _ _⟩
  intro ev he
  cases he
  exact ((textLoop_post s tag (s.length + 1) idx [] false (by omega) (by omega) hts NText.nil
    (fun _ => rfl)).elim h1).1

theorem lexStep_evOK {base : Nat → Out Bool} {s : Str} {idx : Nat} {tags : List Str} (hlt : idx < s.length)
    (hat : AtTok s idx) {oe : Option Ev} {i : Nat} (h : lexStep base s idx tags = .ok (oe, i)) :
    (∀ ev, oe = some ev → EvOK ev) ∧ AtTok s i := by
  have hs : s[idx]? = some s[idx] := List.getElem?_eq_getElem hlt
  unfold lexStep at h
  split at h
  · rename_i hlt'
    rw [currentChar_eq hs] at hlt'
    have hch : s[idx] = cLt := by simpa using hlt'
    simp only [Out.bind_eq_ok] at h
    obtain ⟨cmt, h1, h⟩ := h
    split at h
    · simp only [Out.bind_eq_ok] at h
      obtain ⟨k, h2, h⟩ := h
      cases h
      exact ⟨by simp, atTok_skipSpace _ _⟩
    · simp only [Out.bind_eq_ok] at h
      obtain ⟨e, h2, h⟩ := h
      split at h
      · cases h
        refine ⟨?_, atTok_skipSpace _ _⟩
        intro ev he
        cases tags with
        | nil => cases he
        | cons => cases he; trivial
      · split at h
        · rename_i ha
          have ha' : isAlphabetical (currentChar s (idx + 1)) = true ∨
              currentChar s (idx + 1) = cBang := by simpa using ha
          have hne : currentChar s (idx + 1) ≠ 0 := by
            intro h0
            rw [h0] at ha'
            rcases ha' with h | h <;> revert h <;> decide
          simp only [Out.bind_eq_ok] at h
          obtain ⟨⟨t, c, as, j⟩, h3, h⟩ := h
          cases h
          refine ⟨?_, atTok_skipSpace _ _⟩
          intro ev he
          cases he
          exact lexElem_evOK (currentChar_ne_zero rfl hne) ha' h3
        · refine lexText_evOK (Or.inr ⟨rfl, Or.inr ?_⟩) h
          have : prevAt s (idx + 1) = s[idx] := by
            simp [prevAt, List.getD, hs]
          rw [this, hch]; decide
  · exact lexText_evOK (Or.inl hat) h

theorem lexAll_evOK {base : Nat → Out Bool} {s : Str} : ∀ {f idx : Nat} {tags : List Str} {evs : List Ev},
    AtTok s idx → lexAll base s f idx tags = .ok evs → ∀ e ∈ evs, EvOK e := by
  intro f
  induction f with
  | zero => intro _ _ _ _ h; cases h
  | succ f ih =>
    intro idx tags evs hat h
    unfold lexAll at h
    split at h
    · rename_i hlt
      simp only [Out.bind_eq_ok] at h
      obtain ⟨⟨oe, i⟩, h1, evs', h2, h3⟩ := h
      cases h3
      obtain ⟨h4, h5⟩ := lexStep_evOK hlt hat h1
      intro e he
      rcases List.mem_append.mp he with he | he
      · cases oe with
        | none => cases he
        | some ev => simp at he; subst he; exact h4 _ rfl
      · exact ih h5 h2 e he
    · cases h; simp

theorem lex_evOK {base : Nat → Out Bool} {s : Str} {evs : List Ev} (h : lex base s = .ok evs) :
    ∀ e ∈ evs, EvOK e := lexAll_evOK (atTok_skipSpace s 0) h

/-! ## Summary -/

theorem createDom_lex {s : Str} {d : Dom} (h : createDom s = .ok (some d)) :
    ∃ evs, lex (rootBase s) s = .ok evs ∧ RepL d (forest evs) (kids d 1) := by
  simp only [createDom, Out.bind_eq_ok] at h
  obtain ⟨⟨ok, d'⟩, hr, e⟩ := h
  cases ok with
  | false => cases e
  | true =>
    cases e
    obtain ⟨evs, hl⟩ := lex_of_parseRoot hr
    rw [parseRoot_lex hl] at hr
    refine ⟨evs, hl, ?_⟩
    have hz : ZRep [] ⟨Dom.init, [(1, [])], 1⟩ (fun _ => []) ⟨[], []⟩ := by
      simp [ZRep, ZAt, RepCL, Dom.init]
    obtain ⟨b', ch', e1, e2, e3⟩ := hz.run BInv.initRoot (fun m _ => ⟨rfl, rfl⟩) (lex_evOK hl) hr
    subst e1
    rw [e2.linked.kids_eq (by decide)]
    exact e3.rep (fun q hq => e2.linked.kids_eq hq) _ _

end Flo
