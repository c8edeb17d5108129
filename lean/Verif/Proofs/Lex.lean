import Verif.Proofs.CreateDom
/-!
# The lexer of the parser, separated from the builder

`lexAll` produces the list of events of a run without touching a DOM; `parse_lex` shows that the parser is the
builder run on those events.
-/
namespace Flo
open Spec

/-- `attrLoop` without the DOM. -/
def lexAttrs (s : Str) : Nat → Nat → Bool → Out (Nat × Bool × List Attr)
  | 0, _, _ => .hang
  | f + 1, idx, can =>
    match s[idx]? with
    | none => .ok (idx, can, [])
    | some ch =>
      if ch == cGt then .ok (idx, can, [])
      else if ch == cSlash then lexAttrs s f (skipSpace s (idx + 1)) false
      else if ch != cSp && !isFormatting ch then do
        let (key, i) ← parseProp s idx
        if currentChar s i == cEq then do
          let (value, j) ← parseProp s (i + 1)
          let (a, b, c) ← lexAttrs s f (skipSpace s j) can
          .ok (a, b, .pair key value :: c)
        else do
          let (a, b, c) ← lexAttrs s f (skipSpace s i) can
          .ok (a, b, .bool key :: c)
      else lexAttrs s f (skipSpace s idx) can

/-- `parseDocumentNode` without the DOM. -/
def lexElem (s : Str) (idx : Nat) (exclam : Bool) : Out (Str × Bool × List Attr × Nat) := do
  let i := scanUntil isTagEnd (s.drop idx) idx
  let size : Int := (i : Int) - idx
  let slashed ← tagSlashed s i
  let can := if slashed then false else !exclam
  let size := if slashed then size - 1 else size
  let tag ← subStr s idx size
  let can := if isVoidElement tag then false else can
  let (j, can, as) ← lexAttrs s (s.length + 1) (skipSpace s i) can
  .ok (tag, can, as, j + 1)

/-- `parseText` without the DOM. -/
def lexText (s tag : Str) (idx : Nat) : Out (Option Ev × Nat) := do
  let (raw, i) ← textLoop s tag (s.length + 1) idx [] false
  .ok (some (.text raw), skipSpace s i)

/-- The end-tag test. -/
def lexEnd (base : Nat → Out Bool) (s : Str) (idx : Nat) : List Str → Out Bool
  | t :: _ => isEndDocumentTag s idx t
  | [] => base idx

/-- The event of an end tag. -/
def closeEv : List Str → Option Ev
  | _ :: _ => some .close
  | [] => none

/-- `parseStep` without the DOM; `tags` are the names of the open elements, `base` is the end-tag test when
there are none. -/
def lexStep (base : Nat → Out Bool) (s : Str) (idx : Nat) (tags : List Str) : Out (Option Ev × Nat) :=
  if currentChar s idx == cLt then do
    let cmt ← isCommentTag s idx
    if cmt then do
      let i ← skipComment s idx
      .ok (none, skipSpace s i)
    else do
      let e ← lexEnd base s idx tags
      if e then
        .ok (closeEv tags, skipSpace s (scanUntil (· == cGt) (s.drop idx) idx + 1))
      else
        let ch := currentChar s (idx + 1)
        if isAlphabetical ch || ch == cBang then do
          let (t, c, as, j) ← lexElem s (idx + 1) (ch == cBang)
          .ok (some (.elem t c as), skipSpace s j)
        else lexText s (tags.headD []) (idx + 1)
  else lexText s (tags.headD []) idx

/-- The open elements after an event. -/
def nextTags (tags : List Str) : Ev → List Str
  | .text _ => tags
  | .elem t can _ => if can then t :: tags else tags
  | .close => tags.tail

def nextTagsO (tags : List Str) : Option Ev → List Str
  | none => tags
  | some ev => nextTags tags ev

/-- `parseLoop` without the DOM. -/
def lexAll (base : Nat → Out Bool) (s : Str) : Nat → Nat → List Str → Out (List Ev)
  | 0, _, _ => .hang
  | f + 1, idx, tags =>
    if idx < s.length then do
      let (ev, i) ← lexStep base s idx tags
      let evs ← lexAll base s f i (nextTagsO tags ev)
      .ok (ev.toList ++ evs)
    else .ok []

/-- The events of a whole input. -/
def lex (base : Nat → Out Bool) (s : Str) : Out (List Ev) := lexAll base s (s.length + 1) (skipSpace s 0) []

/-! ## Attributes -/

theorem attrLoop_lex {s : Str} {n : Nat} : ∀ {f idx : Nat} {can : Bool} {j : Nat} {can' : Bool} {as : List Attr},
    lexAttrs s f idx can = .ok (j, can', as) → ∀ d : Dom,
    attrLoop s n f idx can d = (buildAttrs n as d >>= fun d' => .ok (j, can', d')) := by
  intro f
  induction f with
  | zero => intro _ _ _ _ _ h; cases h
  | succ f ih =>
    intro idx can j can' as h d
    unfold lexAttrs at h
    unfold attrLoop
    cases hs : s[idx]? with
    | none => rw [hs] at h; cases h; rfl
    | some ch =>
      rw [hs] at h
      dsimp only at h ⊢
      split at h
      · rename_i hc; rw [if_pos hc]; cases h; rfl
      · rename_i hc; rw [if_neg hc]
        split at h
        · rename_i hc; rw [if_pos hc]; exact ih h d
        · rename_i hc; rw [if_neg hc]
          split at h
          · rename_i hc; rw [if_pos hc]
            simp only [Out.bind_eq_ok] at h
            obtain ⟨⟨key, i⟩, h1, h⟩ := h
            rw [h1]
            simp only [Out.bind_ok]
            dsimp only at h
            split at h
            · rename_i hc; rw [if_pos hc]
              simp only [Out.bind_eq_ok] at h
              obtain ⟨⟨v, k⟩, h2, ⟨a, b, c⟩, h3, h⟩ := h
              cases h
              rw [h2]
              simp only [Out.bind_ok, buildAttrs, buildAttr]
              cases ha : addProperty n key v d with
              | ok d1 => simp only [Out.bind_ok]; exact ih h3 d1
              | longjmp => rfl
              | ub w => rfl
              | hang => rfl
            · rename_i hc; rw [if_neg hc]
              simp only [Out.bind_eq_ok] at h
              obtain ⟨⟨a, b, c⟩, h3, h⟩ := h
              cases h
              simp only [buildAttrs, buildAttr]
              cases ha : addBoolProperty n key d with
              | ok d1 => simp only [Out.bind_ok]; exact ih h3 d1
              | longjmp => rfl
              | ub w => rfl
              | hang => rfl
          · rename_i hc; rw [if_neg hc]; exact ih h d

theorem lexAttrs_of_attrLoop {s : Str} {n : Nat} : ∀ {f idx : Nat} {can : Bool} {d : Dom} {r : Nat × Bool × Dom},
    attrLoop s n f idx can d = .ok r → ∃ x, lexAttrs s f idx can = .ok x := by
  intro f
  induction f with
  | zero => intro _ _ _ _ h; cases h
  | succ f ih =>
    intro idx can d r h
    unfold attrLoop at h
    unfold lexAttrs
    cases hs : s[idx]? with
    | none => exact ⟨_, rfl⟩
    | some ch =>
      rw [hs] at h
      dsimp only at h ⊢
      split at h
      · rename_i hc; rw [if_pos hc]; exact ⟨_, rfl⟩
      · rename_i hc; rw [if_neg hc]
        split at h
        · rename_i hc; rw [if_pos hc]; exact ih h
        · rename_i hc; rw [if_neg hc]
          split at h
          · rename_i hc; rw [if_pos hc]
            simp only [Out.bind_eq_ok] at h
            obtain ⟨⟨key, i⟩, h1, h⟩ := h
            rw [h1]
            simp only [Out.bind_ok]
            dsimp only at h
            split at h
            · rename_i hc; rw [if_pos hc]
              simp only [Out.bind_eq_ok] at h
              obtain ⟨⟨v, k⟩, h2, d1, _, h⟩ := h
              obtain ⟨x, hx⟩ := ih h
              rw [h2]
              simp only [Out.bind_ok, hx]
              exact ⟨_, rfl⟩
            · rename_i hc; rw [if_neg hc]
              simp only [Out.bind_eq_ok] at h
              obtain ⟨d1, _, h⟩ := h
              obtain ⟨x, hx⟩ := ih h
              simp only [Out.bind_ok, hx]
              exact ⟨_, rfl⟩
          · rename_i hc; rw [if_neg hc]; exact ih h

/-! ## Elements and texts -/

theorem parseDocumentNode_lex {s : Str} {idx : Nat} {ex : Bool} {tag : Str} {can : Bool} {as : List Attr} {j : Nat}
    (h : lexElem s idx ex = .ok (tag, can, as, j)) (d : Dom) :
    parseDocumentNode s idx ex d =
      (buildElem tag can as d >>= fun p => .ok ⟨p.1, can, tag, j, p.2⟩) := by
  simp only [lexElem, Out.bind_eq_ok] at h
  obtain ⟨sl, h1, t, h2, ⟨j', c', as'⟩, h3, h4⟩ := h
  cases h4
  unfold parseDocumentNode buildElem
  cases hc : createNode .document d with
  | ok p =>
    obtain ⟨id, d1⟩ := p
    simp only [Out.bind_ok, h1, h2, attrLoop_lex h3]
    cases hb : buildAttrs id as' d1 with
    | ok d2 =>
      simp only [Out.bind_ok]
      cases ht : setTag tag id c' d2 <;> rfl
    | longjmp => rfl
    | ub w => rfl
    | hang => rfl
  | longjmp => rfl
  | ub w => rfl
  | hang => rfl

theorem lexElem_of_parse {s : Str} {idx : Nat} {ex : Bool} {d : Dom} {r : NodeParse}
    (h : parseDocumentNode s idx ex d = .ok r) : ∃ x, lexElem s idx ex = .ok x := by
  simp only [parseDocumentNode, Out.bind_eq_ok] at h
  obtain ⟨⟨id, d1⟩, _, sl, h1, t, h2, ⟨j, c, d2⟩, h3, _⟩ := h
  obtain ⟨x, hx⟩ := lexAttrs_of_attrLoop h3
  simp only [lexElem, h1, Out.bind_ok, h2, hx]
  exact ⟨_, rfl⟩

theorem createNode_node {ty : NodeType} {d d1 : Dom} {id : Nat} (h : createNode ty d = .ok (id, d1)) :
    ∃ nd, d1.node id = .ok nd := by
  obtain ⟨e1, e2, e3⟩ := createNode_eq h
  exact ⟨_, node_ok (by rw [e3, e1]; simp)⟩

theorem parseText_lex {s : Str} {idx : Nat} {st : PState} {tag raw : Str} {i : Nat} (startLen : Nat)
    (ht : (st.stack.map (·.2)).headD [] = tag)
    (h : textLoop s tag (s.length + 1) idx [] false = .ok (raw, i)) :
    parseText s idx st = (runEv startLen st.b (.text raw) >>= fun x => match x with
      | .inl b => .ok (.next ⟨skipSpace s i, b.dom, b.stack, b.prev⟩)
      | .inr d => .ok (.null d)) := by
  obtain ⟨idx0, dom, stack, prev⟩ := st
  have ht' : parseText s idx ⟨idx0, dom, stack, prev⟩ = (do
      let (id, i, d) ← parseTextNode s idx tag dom
      let d := parserUpdateReferences id prev stack d
      .ok (.next { idx := skipSpace s i, dom := d, stack := stack, prev := id })) := by
    subst ht
    cases stack <;> rfl
  rw [ht']
  simp only [parseTextNode, runEv, parseTextElement, h]
  cases hc : createNode .text dom with
  | ok p =>
    obtain ⟨id, d1⟩ := p
    obtain ⟨nd, hn⟩ := createNode_node hc
    simp only [Out.bind_ok, hn]
  | longjmp => rfl
  | ub w => rfl
  | hang => rfl

theorem lexText_of_parse {s : Str} {idx : Nat} {st : PState} {tag : Str} {r : PStep}
    (ht : (st.stack.map (·.2)).headD [] = tag) (h : parseText s idx st = .ok r) :
    ∃ x, lexText s tag idx = .ok x := by
  obtain ⟨idx0, dom, stack, prev⟩ := st
  have ht' : parseText s idx ⟨idx0, dom, stack, prev⟩ = (do
      let (id, i, d) ← parseTextNode s idx tag dom
      let d := parserUpdateReferences id prev stack d
      .ok (.next { idx := skipSpace s i, dom := d, stack := stack, prev := id })) := by
    subst ht
    cases stack <;> rfl
  rw [ht'] at h
  simp only [parseTextNode, Out.bind_eq_ok] at h
  obtain ⟨⟨id, i, d'⟩, ⟨⟨id', d1⟩, _, ⟨raw, i'⟩, h1, _⟩, _⟩ := h
  simp only [lexText, h1]
  exact ⟨_, rfl⟩

/-! ## One step -/

/-- The nesting stack of a parser state: names of the open elements above the bottom `bt`. -/
def StackIs (bt tags : List Str) (stack : List (Nat × Str)) : Prop := stack.map (·.2) = tags ++ bt

/-- `base` answers the end-tag test at the bottom. -/
def BaseIs (junk base : Nat → Out Bool) (s : Str) (bt : List Str) : Prop :=
  ∀ idx stack, stack.map (·.2) = bt → atEndTag junk s idx stack = base idx

theorem StackIs.head {bt tags : List Str} {stack : List (Nat × Str)} (h : StackIs bt tags stack)
    (hb : bt = [] ∨ bt = [[]]) : (stack.map (·.2)).headD [] = tags.headD [] := by
  rw [h]
  cases tags with
  | cons => rfl
  | nil => rcases hb with rfl | rfl <;> rfl

/-- Resume the main loop at `i` after an event. -/
def resume (i : Nat) : BState ⊕ Dom → Out PStep
  | .inl b => .ok (.next ⟨i, b.dom, b.stack, b.prev⟩)
  | .inr d => .ok (.null d)

/-- The state after a step of the lexer. -/
def afterStep (startLen : Nat) (st : PState) (i : Nat) : Option Ev → Out PStep
  | none => .ok (.next { st with idx := i })
  | some ev => runEv startLen st.b ev >>= resume i

theorem parseElement_lex {s : Str} {idx : Nat} {st : PState} {tag : Str} {can : Bool} {as : List Attr} {j : Nat}
    (startLen : Nat) (h : lexElem s idx (currentChar s idx == cBang) = .ok (tag, can, as, j)) :
    parseElement s idx st = (runEv startLen st.b (.elem tag can as) >>= resume (skipSpace s j)) := by
  unfold parseElement
  rw [parseDocumentNode_lex h]
  simp only [runEv]
  cases hb : buildElem tag can as st.dom with
  | ok p =>
    simp only [Out.bind_ok]
    split
    · split <;> rfl
    · rfl
  | longjmp => rfl
  | ub w => rfl
  | hang => rfl

theorem atEnd_tag {junk base : Nat → Out Bool} {s : Str} {bt tags : List Str} {stack : List (Nat × Str)}
    (hs : StackIs bt tags stack) (hb : BaseIs junk base s bt) (idx : Nat) :
    atEndTag junk s idx stack = lexEnd base s idx tags := by
  cases tags with
  | nil => exact hb idx stack (by simpa [StackIs] using hs)
  | cons t l =>
    unfold StackIs at hs
    cases stack with
    | nil => simp at hs
    | cons e r =>
      obtain ⟨a, b⟩ := e
      simp at hs
      show isEndDocumentTag s idx b = isEndDocumentTag s idx t
      rw [hs.1]

theorem parseEndTag_lex {s : Str} {bt tags : List Str} {st : PState} (hs : StackIs bt tags st.stack) :
    Out.ok (parseEndTag s bt.length st) =
      afterStep bt.length st (skipSpace s (scanUntil (· == cGt) (s.drop st.idx) st.idx + 1)) (closeEv tags) := by
  have hl : st.stack.length = tags.length + bt.length := by
    have := congrArg List.length hs
    simpa using this
  unfold parseEndTag
  cases tags with
  | nil =>
    show _ = Out.ok _
    dsimp only
    split
    · rw [if_neg (by simp at hl; omega)]
    · rfl
  | cons t l =>
    obtain ⟨idx0, dom, stack, prev⟩ := st
    cases stack with
    | nil => simp at hl; omega
    | cons e r =>
      obtain ⟨id, tg⟩ := e
      simp at hl
      simp only [closeEv, afterStep, runEv, PState.b]
      rw [if_pos (by simp; omega), if_pos (by simp; omega)]
      rfl

theorem parseStep_lex {junk base : Nat → Out Bool} {s : Str} {bt tags : List Str} {st : PState}
    (hbt : bt = [] ∨ bt = [[]]) (hs : StackIs bt tags st.stack) (hb : BaseIs junk base s bt) {oe : Option Ev}
    {i : Nat} (h : lexStep base s st.idx tags = .ok (oe, i)) :
    parseStep junk s bt.length st = afterStep bt.length st i oe := by
  have htext : ∀ idx, lexText s (tags.headD []) idx = .ok (oe, i) → parseText s idx st = afterStep bt.length st i oe := by
    intro idx h
    simp only [lexText, Out.bind_eq_ok] at h
    obtain ⟨⟨raw, k⟩, h1, h⟩ := h
    cases h
    rw [parseText_lex bt.length (hs.head hbt) h1]
    rfl
  unfold lexStep at h
  unfold parseStep
  split at h
  · rename_i hc; rw [if_pos hc]
    simp only [Out.bind_eq_ok] at h
    obtain ⟨cmt, h1, h⟩ := h
    rw [h1]
    simp only [Out.bind_ok]
    split at h
    · rename_i hc; rw [if_pos hc]
      simp only [Out.bind_eq_ok] at h
      obtain ⟨k, h2, h⟩ := h
      cases h
      rw [h2]; rfl
    · rename_i hc; rw [if_neg hc]
      rw [atEnd_tag hs hb]
      simp only [Out.bind_eq_ok] at h
      obtain ⟨e, h2, h⟩ := h
      rw [h2]
      simp only [Out.bind_ok]
      split at h
      · rename_i hc; rw [if_pos hc]
        cases h
        exact parseEndTag_lex hs
      · rename_i hc; rw [if_neg hc]
        split at h
        · rename_i hc; rw [if_pos hc]
          simp only [Out.bind_eq_ok] at h
          obtain ⟨⟨t, c, as, j⟩, h3, h⟩ := h
          cases h
          exact parseElement_lex bt.length h3
        · rename_i hc; rw [if_neg hc]; exact htext _ h
  · rename_i hc; rw [if_neg hc]; exact htext _ h

theorem lexStep_of_parse {junk base : Nat → Out Bool} {s : Str} {bt tags : List Str} {st : PState}
    (hbt : bt = [] ∨ bt = [[]]) (hs : StackIs bt tags st.stack) (hb : BaseIs junk base s bt) {r : PStep}
    (h : parseStep junk s bt.length st = .ok r) : ∃ x, lexStep base s st.idx tags = .ok x := by
  unfold parseStep at h
  unfold lexStep
  split at h
  · rename_i hc; rw [if_pos hc]
    simp only [Out.bind_eq_ok] at h
    obtain ⟨cmt, h1, h⟩ := h
    rw [h1]
    simp only [Out.bind_ok]
    split at h
    · rename_i hc; rw [if_pos hc]
      simp only [Out.bind_eq_ok] at h
      obtain ⟨k, h2, h⟩ := h
      rw [h2]; exact ⟨_, rfl⟩
    · rename_i hc; rw [if_neg hc]
      rw [atEnd_tag hs hb] at h
      simp only [Out.bind_eq_ok] at h
      obtain ⟨e, h2, h⟩ := h
      rw [h2]
      simp only [Out.bind_ok]
      split at h
      · rename_i hc; rw [if_pos hc]; exact ⟨_, rfl⟩
      · rename_i hc; rw [if_neg hc]
        split at h
        · rename_i hc; rw [if_pos hc]
          simp only [parseElement, Out.bind_eq_ok] at h
          obtain ⟨np, h3, _⟩ := h
          obtain ⟨x, hx⟩ := lexElem_of_parse h3
          rw [hx]; exact ⟨_, rfl⟩
        · rename_i hc; rw [if_neg hc]; exact lexText_of_parse (hs.head hbt) h
  · rename_i hc; rw [if_neg hc]; exact lexText_of_parse (hs.head hbt) h

theorem runEv_tags {bt tags : List Str} {b b' : BState} {ev : Ev} (hs : StackIs bt tags b.stack)
    (hc : ev = .close → tags ≠ []) (h : runEv bt.length b ev = .ok (.inl b')) :
    StackIs bt (nextTags tags ev) b'.stack := by
  cases ev with
  | text raw =>
    simp only [runEv, Out.bind_eq_ok] at h
    obtain ⟨⟨id, d⟩, _, h⟩ := h
    cases h; exact hs
  | elem t can as =>
    simp only [runEv, Out.bind_eq_ok] at h
    obtain ⟨⟨id, d⟩, _, h⟩ := h
    dsimp only at h
    split at h
    · rename_i hcan
      split at h
      · cases h
      · cases h
        unfold StackIs at *
        simp [nextTags, hcan, hs]
    · rename_i hcan
      cases h
      simpa [StackIs, nextTags, hcan] using hs
  | close =>
    have hne := hc rfl
    obtain ⟨t, l, rfl⟩ := List.exists_cons_of_ne_nil hne
    unfold StackIs at hs
    have hl := congrArg List.length hs
    simp only [runEv] at h
    cases hst : b.stack with
    | nil => rw [hst] at hs; simp at hs
    | cons e r =>
      obtain ⟨id, tg⟩ := e
      rw [hst] at h hs hl
      simp at hl
      dsimp only at h
      rw [if_pos (by simp; omega)] at h
      cases h
      simp at hs
      simpa [StackIs, nextTags] using hs.2

theorem lexText_ev {s t : Str} {k : Nat} {oe : Option Ev} {i : Nat} (h : lexText s t k = .ok (oe, i)) :
    ∃ raw, oe = some (.text raw) := by
  simp only [lexText, Out.bind_eq_ok] at h
  obtain ⟨⟨raw, j⟩, h1, h⟩ := h
  cases h; exact ⟨_, rfl⟩

theorem lexStep_close {base : Nat → Out Bool} {s : Str} {idx : Nat} {tags : List Str} {i : Nat}
    (h : lexStep base s idx tags = .ok (some .close, i)) : tags ≠ [] := by
  rintro rfl
  unfold lexStep at h
  split at h
  · simp only [Out.bind_eq_ok] at h
    obtain ⟨cmt, h1, h⟩ := h
    split at h
    · simp only [Out.bind_eq_ok] at h
      obtain ⟨k, h2, h⟩ := h
      cases h
    · simp only [Out.bind_eq_ok] at h
      obtain ⟨e, h2, h⟩ := h
      split at h
      · cases h
      · split at h
        · simp only [Out.bind_eq_ok] at h
          obtain ⟨⟨t, c, as, j⟩, h3, h⟩ := h
          cases h
        · obtain ⟨r, hr⟩ := lexText_ev h; cases hr
  · obtain ⟨r, hr⟩ := lexText_ev h; cases hr

/-! ## The loop -/

theorem parseLoop_lex {junk base : Nat → Out Bool} {s : Str} {bt : List Str} (hbt : bt = [] ∨ bt = [[]])
    (hb : BaseIs junk base s bt) : ∀ {f : Nat} {st : PState} {tags : List Str} {evs : List Ev},
    StackIs bt tags st.stack → lexAll base s f st.idx tags = .ok evs →
    parseLoop junk s bt.length f st = runEvs bt.length evs st.b := by
  intro f
  induction f with
  | zero => intro st tags evs _ h; cases h
  | succ f ih =>
    intro st tags evs hs h
    unfold lexAll at h
    unfold parseLoop
    split at h
    · rename_i hc; rw [if_pos hc]
      simp only [Out.bind_eq_ok] at h
      obtain ⟨⟨oe, i⟩, h1, evs', h2, h3⟩ := h
      cases h3
      rw [parseStep_lex hbt hs hb h1]
      cases oe with
      | none =>
        simp only [afterStep, Out.bind_ok, Option.toList, List.nil_append]
        exact ih (st := { st with idx := i }) hs h2
      | some ev =>
        simp only [afterStep, Option.toList, List.cons_append, List.nil_append, runEvs]
        cases hr : runEv bt.length st.b ev with
        | ok x =>
          cases x with
          | inl b =>
            simp only [Out.bind_ok, resume]
            exact ih (st := ⟨i, b.dom, b.stack, b.prev⟩) (tags := nextTags tags ev)
              (runEv_tags hs (fun e => lexStep_close (e ▸ h1)) hr) h2
          | inr d => rfl
        | longjmp => rfl
        | ub w => rfl
        | hang => rfl
    · rename_i hc; rw [if_neg hc]; cases h; rfl

theorem lexAll_of_parse {junk base : Nat → Out Bool} {s : Str} {bt : List Str} (hbt : bt = [] ∨ bt = [[]])
    (hb : BaseIs junk base s bt) : ∀ {f : Nat} {st : PState} {tags : List Str} {d : Dom},
    StackIs bt tags st.stack → parseLoop junk s bt.length f st = .ok ⟨true, d⟩ →
    ∃ evs, lexAll base s f st.idx tags = .ok evs := by
  intro f
  induction f with
  | zero => intro st tags d _ h; cases h
  | succ f ih =>
    intro st tags d hs h
    unfold parseLoop at h
    unfold lexAll
    split at h
    · rename_i hc; rw [if_pos hc]
      simp only [Out.bind_eq_ok] at h
      obtain ⟨x, h1, h2⟩ := h
      obtain ⟨⟨oe, i⟩, hx⟩ := lexStep_of_parse hbt hs hb h1
      rw [hx]
      simp only [Out.bind_ok]
      rw [parseStep_lex hbt hs hb hx] at h1
      cases oe with
      | none =>
        cases h1
        obtain ⟨evs, he⟩ := ih (st := { st with idx := i }) hs h2
        have he : lexAll base s f i tags = .ok evs := he
        rw [show nextTagsO tags none = tags from rfl, he]
        exact ⟨_, rfl⟩
      | some ev =>
        simp only [afterStep, Out.bind_eq_ok] at h1
        obtain ⟨y, h3, h4⟩ := h1
        cases y with
        | inl b =>
          cases h4
          obtain ⟨evs, he⟩ := ih (st := ⟨i, b.dom, b.stack, b.prev⟩) (tags := nextTags tags ev)
            (runEv_tags hs (fun e => lexStep_close (e ▸ hx)) h3) h2
          dsimp only at he
          rw [show nextTagsO tags (some ev) = nextTags tags ev from rfl, he]
          exact ⟨_, rfl⟩
        | inr d' => cases h4; cases h2
    · rename_i hc; rw [if_neg hc]; exact ⟨_, rfl⟩

/-! ## The two entry points -/

/-- At the bottom of a document parse the "innermost open element" is the root with the empty name. -/
def rootBase (s : Str) (i : Nat) : Out Bool := isEndDocumentTag s i []

/-- At the bottom of a fragment parse the stack is empty. -/
def fragBase (junk : Nat → Out Bool) (s : Str) (i : Nat) : Out Bool :=
  if currentChar s (i + 1) == cSlash then junk i else .ok false

theorem baseIs_root (junk : Nat → Out Bool) (s : Str) : BaseIs junk (rootBase s) s [[]] := by
  intro idx stack h
  cases stack with
  | nil => simp at h
  | cons e r =>
    obtain ⟨a, b⟩ := e
    simp at h
    show isEndDocumentTag s idx b = _
    rw [h.1]; rfl

theorem baseIs_frag (junk : Nat → Out Bool) (s : Str) : BaseIs junk (fragBase junk s) s [] := by
  intro idx stack h
  have : stack = [] := by simpa using h
  subst this; rfl

theorem parseRoot_lex {junk : Nat → Out Bool} {s : Str} {evs : List Ev} (h : lex (rootBase s) s = .ok evs) (d : Dom) :
    parseRoot junk s d = runEvs 1 evs ⟨d, [(1, [])], 1⟩ :=
  parseLoop_lex (bt := [[]]) (Or.inr rfl) (baseIs_root junk s) (tags := []) rfl h

theorem parseExtra_lex {junk : Nat → Out Bool} {s : Str} {evs : List Ev} (h : lex (fragBase junk s) s = .ok evs)
    (d : Dom) : parseExtra junk s d = runEvs 0 evs ⟨d, [], 0⟩ :=
  parseLoop_lex (bt := []) (Or.inl rfl) (baseIs_frag junk s) (tags := []) rfl h

theorem lex_of_parseRoot {junk : Nat → Out Bool} {s : Str} {d d' : Dom} (h : parseRoot junk s d = .ok ⟨true, d'⟩) :
    ∃ evs, lex (rootBase s) s = .ok evs :=
  lexAll_of_parse (bt := [[]]) (Or.inr rfl) (baseIs_root junk s) (tags := [])
    (st := { idx := skipSpace s 0, dom := d, stack := [(rootID, [])], prev := rootID }) rfl h

theorem lex_of_parseExtra {junk : Nat → Out Bool} {s : Str} {d d' : Dom} (h : parseExtra junk s d = .ok ⟨true, d'⟩) :
    ∃ evs, lex (fragBase junk s) s = .ok evs :=
  lexAll_of_parse (bt := []) (Or.inl rfl) (baseIs_frag junk s) (tags := [])
    (st := { idx := skipSpace s 0, dom := d, stack := [], prev := errorID }) rfl h

theorem lexStep_base {base base' : Nat → Out Bool} {s : Str}
    (hb : ∀ i b, base i = .ok b → base' i = .ok b) {idx : Nat} {tags : List Str} {x : Option Ev × Nat}
    (h : lexStep base s idx tags = .ok x) : lexStep base' s idx tags = .ok x := by
  cases tags with
  | cons t l => exact h
  | nil =>
    unfold lexStep at h ⊢
    split at h
    · rename_i hc; rw [if_pos hc]
      simp only [Out.bind_eq_ok] at h
      obtain ⟨cmt, h1, h⟩ := h
      rw [h1]
      simp only [Out.bind_ok]
      split at h
      · rename_i hc; rw [if_pos hc]; exact h
      · rename_i hc; rw [if_neg hc]
        simp only [Out.bind_eq_ok] at h
        obtain ⟨e, h2, h⟩ := h
        rw [show lexEnd base' s idx [] = .ok e from hb _ _ h2]
        exact h
    · rename_i hc; rw [if_neg hc]; exact h

theorem lexAll_base {base base' : Nat → Out Bool} {s : Str}
    (hb : ∀ i b, base i = .ok b → base' i = .ok b) : ∀ {f idx : Nat} {tags : List Str} {evs : List Ev},
    lexAll base s f idx tags = .ok evs → lexAll base' s f idx tags = .ok evs := by
  intro f
  induction f with
  | zero => intro _ _ _ h; cases h
  | succ f ih =>
    intro idx tags evs h
    unfold lexAll at h ⊢
    split at h
    · rename_i hc; rw [if_pos hc]
      simp only [Out.bind_eq_ok] at h
      obtain ⟨⟨oe, i⟩, h1, evs', h2, h3⟩ := h
      rw [lexStep_base hb h1]
      simp only [Out.bind_ok, ih h2]
      exact h3
    · rename_i hc; rw [if_neg hc]; exact h

/-- A fragment whose parse does not depend on the stray read is lexed like a document. -/
theorem lex_frag_root {s : Str} {evs : List Ev} {w : Why} (h : lex (fragBase (fun _ => .ub w) s) s = .ok evs) :
    lex (rootBase s) s = .ok evs := by
  refine lexAll_base ?_ h
  intro i b hb
  unfold fragBase at hb
  split at hb
  · cases hb
  · rename_i hc
    cases hb
    unfold rootBase isEndDocumentTag
    dsimp only
    rw [if_neg (fun h => hc h.1)]

end Flo
