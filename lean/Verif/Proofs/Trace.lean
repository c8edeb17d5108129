import Verif.Proofs.Text
/-!
# The parser as a lexer producing events and a builder consuming them

`parse_trace` factors every successful run of the main loop of `flo_html_parse` through a list of events
(text, start tag, end tag), and gives termination and read safety at the same time.
-/
namespace Flo

/-- An attribute of a start tag. -/
inductive Attr where
  | bool (name : Str)
  | pair (key value : Str)
  deriving DecidableEq, Repr

/-- What one iteration of the parser's main loop found. -/
inductive Ev where
  | text (raw : Str)
  | elem (tag : Str) (can : Bool) (attrs : List Attr)
  | close
  deriving DecidableEq, Repr

def buildAttr (n : Nat) : Attr → Dom → Out Dom
  | .bool b, d => addBoolProperty n b d
  | .pair k v, d => addProperty n k v d

def buildAttrs (n : Nat) : List Attr → Dom → Out Dom
  | [], d => .ok d
  | a :: as, d => do
    let d ← buildAttr n a d
    buildAttrs n as d

/-- A new document node with its attributes and tag, in the parser's order. -/
def buildElem (tag : Str) (can : Bool) (attrs : List Attr) (d : Dom) : Out (Nat × Dom) := do
  let (id, d) ← createNode .document d
  let d ← buildAttrs id attrs d
  let d ← setTag tag id can d
  .ok (id, d)

structure BState where
  dom : Dom
  stack : List (Nat × Str)
  prev : Nat

def runEv (startLen : Nat) (b : BState) : Ev → Out (BState ⊕ Dom)
  | .text raw => do
    let (id, d) ← parseTextElement raw b.dom
    .ok (.inl { dom := parserUpdateReferences id b.prev b.stack d, stack := b.stack, prev := id })
  | .elem tag can attrs => do
    let (id, d) ← buildElem tag can attrs b.dom
    let d := parserUpdateReferences id b.prev b.stack d
    if can then
      if b.stack.length ≥ maxDepth then .ok (.inr d)
      else .ok (.inl { dom := d, stack := (id, tag) :: b.stack, prev := id })
    else .ok (.inl { dom := d, stack := b.stack, prev := id })
  | .close =>
    match b.stack with
    | (id, _) :: rest =>
      if b.stack.length > startLen then .ok (.inl { dom := b.dom, stack := rest, prev := id })
      else .ok (.inl b)
    | [] => .ok (.inl b)

def runEvs (startLen : Nat) : List Ev → BState → Out ParseRes
  | [], b => .ok ⟨true, b.dom⟩
  | e :: es, b => do
    match ← runEv startLen b e with
    | .inl b => runEvs startLen es b
    | .inr d => .ok ⟨false, d⟩

/-- What the lexer guarantees about an event. -/
def EvOK : Ev → Prop
  | .text raw => NText raw
  | .elem tag can _ =>
      (isVoidElement tag = true → can = false) ∧
      (∃ c rest, tag = c :: rest ∧ (isAlphabetical c = true ∨ (c = cBang ∧ can = false))) ∧
      (∀ c ∈ tag, isTagEnd c = false)
  | .close => True

/-- The only kind of undefined behaviour the lexer can run into: a quote as the very last byte. -/
def EQuote (s : Str) (w : Why) : Prop :=
  w = .negLen ∧ ∃ pre q, s = pre ++ [q] ∧ (q = cQuot ∨ q = cDQuot)

/-! ## Attributes -/

theorem quoteLoop_spec (q : UInt8) : ∀ (rest : Str) (i cnt : Nat) (len : Int),
    ∃ k : Nat, quoteLoop q rest i cnt len = (i + k, len + k) ∧ k ≤ rest.length ∧
      (cnt < 2 → rest ≠ [] → 1 ≤ k) ∧ (cnt = 0 → 2 ≤ rest.length → 2 ≤ k) := by
  intro rest
  induction rest with
  | nil => intro i cnt len; exact ⟨0, by simp [quoteLoop]⟩
  | cons c cs ih =>
    intro i cnt len
    unfold quoteLoop
    split
    · rename_i hc
      obtain ⟨k, h1, h2, h3, h4⟩ := ih (i + 1) (cnt + if c == q then 1 else 0) (len + 1)
      refine ⟨k + 1, ?_, by simp; omega, by intros; omega, ?_⟩
      · rw [h1]; simp; omega
      · intro h0 hl
        have : cs ≠ [] := by rintro rfl; simp at hl
        have := h3 (by split <;> omega) this
        omega
    · rename_i hc
      exact ⟨0, by simp, by omega, by omega, by omega⟩

theorem drop_cons {s : Str} {i : Nat} {c : UInt8} (h : s[i]? = some c) :
    s.drop i = c :: s.drop (i + 1) := by
  obtain ⟨hi, rfl⟩ := List.getElem?_eq_some_iff.mp h
  exact List.drop_eq_getElem_cons hi

theorem scanUntil_gt {p : UInt8 → Bool} {s : Str} {i : Nat} {c : UInt8} (h : s[i]? = some c)
    (hc : p c = false) : i < scanUntil p (s.drop i) i := by
  unfold scanUntil
  rw [drop_cons h, scanWhile, if_pos (by simp [hc])]
  have := scanWhile_ge (fun c => !p c) (s.drop (i + 1)) (i + 1)
  omega

theorem scanUntil_eq_self {p : UInt8 → Bool} {s : Str} {i : Nat} {c : UInt8} (h : s[i]? = some c)
    (hc : p c = true) : scanUntil p (s.drop i) i = i := by
  unfold scanUntil
  rw [drop_cons h, scanWhile, if_neg (by simp [hc])]

theorem parseProp_post (s : Str) (idx : Nat) (hi : idx ≤ s.length) :
    Post (EQuote s) (fun r => idx ≤ r.2 ∧ r.2 ≤ s.length ∧
      (∀ c, s[idx]? = some c → isPropEnd c = false → idx < r.2)) (parseProp s idx) := by
  unfold parseProp
  dsimp only
  split
  · rename_i hq
    have hq' : currentChar s idx = cQuot ∨ currentChar s idx = cDQuot := by simpa using hq
    have hne : currentChar s idx ≠ 0 := by rcases hq' with h | h <;> rw [h] <;> decide
    have hs := currentChar_ne_zero (s := s) (i := idx) rfl hne
    have hlt := lt_of_getElem? hs
    obtain ⟨k, h1, h2, h3, h4⟩ := quoteLoop_spec (currentChar s idx) (s.drop idx) idx 0 (-2)
    rw [h1]
    dsimp only
    have hk1 := h3 (by omega) (by rw [drop_cons hs]; simp)
    simp only [List.length_drop] at h2 h4
    by_cases hk : 2 ≤ k
    · rw [subStr_ok' (s := s) (start := (idx : Int) + 1) (len := -2 + (k : Int)) (a := idx + 1) (b := k - 2)
        (by omega) (by omega) (by omega)]
      simp only [Out.bind_ok, Post.ok]
      refine ⟨by omega, by omega, fun _ _ _ => by omega⟩
    · have hlast : idx + 1 = s.length := by
        by_contra hcon
        exact hk (h4 trivial (by omega))
      have : subStr s ((idx : Int) + 1) (-2 + (k : Int)) = .ub .negLen := by
        unfold subStr; rw [if_pos (by omega)]
      rw [this]
      simp only [Out.bind_ub, Post.ub]
      refine ⟨rfl, s.take idx, currentChar s idx, ?_, hq'⟩
      have := List.take_append_drop idx s
      rw [drop_cons hs, List.drop_eq_nil_of_le (by omega)] at this
      exact this.symm
  · have hge : idx ≤ scanUntil isPropEnd (s.drop idx) idx := scanWhile_ge _ _ _
    have hle : scanUntil isPropEnd (s.drop idx) idx ≤ max idx s.length := scanWhile_le _ _ _
    rw [subStr_ok' (s := s) (start := (idx : Int)) (a := idx)
      (len := (scanUntil isPropEnd (s.drop idx) idx : Int) - idx)
      (b := scanUntil isPropEnd (s.drop idx) idx - idx) rfl (by omega) (by omega)]
    simp only [Out.bind_ok, Post.ok]
    exact ⟨hge, by omega, fun c hc hp => scanUntil_gt hc hp⟩

theorem insert_post (m : AutoMap) (k : Str) : Post NoUB (fun _ => True) (m.insert k) := by
  unfold AutoMap.insert
  split
  · trivial
  · split <;> trivial

theorem internKey_post (s : Str) (d : Dom) : Post NoUB (fun _ => True) (internKey s d) :=
  (insert_post _ _).bindP (fun _ _ => trivial)

theorem internVal_post (s : Str) (d : Dom) : Post NoUB (fun _ => True) (internVal s d) :=
  (insert_post _ _).bindP (fun _ _ => trivial)

theorem internBool_post (s : Str) (d : Dom) : Post NoUB (fun _ => True) (internBool s d) :=
  (insert_post _ _).bindP (fun _ _ => trivial)

theorem addProperty_post (n : Nat) (k v : Str) (d : Dom) :
    Post NoUB (fun _ => True) (addProperty n k v d) := by
  unfold addProperty
  refine (internKey_post k d).bindP (fun r _ => ?_)
  refine (internVal_post v r.2).bindP (fun r _ => ?_)
  trivial

theorem addBoolProperty_post (n : Nat) (b : Str) (d : Dom) :
    Post NoUB (fun _ => True) (addBoolProperty n b d) := by
  unfold addBoolProperty
  exact (internBool_post b d).bindP (fun r _ => trivial)

/-- Attribute operations leave nodes and links alone. -/
structure SameNodes (d d' : Dom) : Prop where
  nodes : d'.nodes = d.nodes
  fc : d'.fc = d.fc
  pc : d'.pc = d.pc
  nn : d'.nn = d.nn

theorem SameNodes.refl (d : Dom) : SameNodes d d := ⟨rfl, rfl, rfl, rfl⟩
theorem SameNodes.trans {a b c : Dom} (h1 : SameNodes a b) (h2 : SameNodes b c) : SameNodes a c :=
  ⟨h2.1.trans h1.1, h2.2.trans h1.2, h2.3.trans h1.3, h2.4.trans h1.4⟩

theorem addProperty_same {n : Nat} {k v : Str} {d d' : Dom} (h : addProperty n k v d = .ok d') :
    SameNodes d d' := by
  simp only [addProperty, internKey, internVal, Out.bind_eq_ok] at h
  obtain ⟨⟨k', d1⟩, ⟨r1, _, e1⟩, ⟨v', d2⟩, ⟨r2, _, e2⟩, e3⟩ := h
  cases e1; cases e2; cases e3
  exact ⟨rfl, rfl, rfl, rfl⟩

theorem addBoolProperty_same {n : Nat} {b : Str} {d d' : Dom} (h : addBoolProperty n b d = .ok d') :
    SameNodes d d' := by
  simp only [addBoolProperty, internBool, Out.bind_eq_ok] at h
  obtain ⟨⟨k', d1⟩, ⟨r1, _, e1⟩, e3⟩ := h
  cases e1; cases e3
  exact ⟨rfl, rfl, rfl, rfl⟩

theorem buildAttr_same {n : Nat} {a : Attr} {d d' : Dom} (h : buildAttr n a d = .ok d') :
    SameNodes d d' := by
  cases a with
  | bool b => exact addBoolProperty_same h
  | pair k v => exact addProperty_same h

theorem buildAttrs_same {n : Nat} {as : List Attr} {d d' : Dom} (h : buildAttrs n as d = .ok d') :
    SameNodes d d' := by
  induction as generalizing d with
  | nil => cases h; exact SameNodes.refl _
  | cons a as ih =>
    simp only [buildAttrs, Out.bind_eq_ok] at h
    obtain ⟨d1, h1, h2⟩ := h
    exact (buildAttr_same h1).trans (ih h2)

theorem buildAttr_post (n : Nat) (a : Attr) (d : Dom) : Post NoUB (fun _ => True) (buildAttr n a d) := by
  cases a with
  | bool b => exact addBoolProperty_post n b d
  | pair k v => exact addProperty_post n k v d

theorem attrLoop_post (s : Str) (n : Nat) : ∀ (f idx : Nat) (can : Bool) (d : Dom),
    0 < f → s.length < f + idx →
    Post (EQuote s) (fun r => idx ≤ r.1 ∧ (can = false → r.2.1 = false) ∧
      ∃ attrs, buildAttrs n attrs d = .ok r.2.2) (attrLoop s n f idx can d) := by
  intro f
  induction f with
  | zero => intro _ _ _ h; omega
  | succ f ih =>
    intro idx can d _ hf
    unfold attrLoop
    cases hs : s[idx]? with
    | none => simp only [Post.ok]; exact ⟨Nat.le_refl _, id, [], rfl⟩
    | some ch =>
      have hlt := lt_of_getElem? hs
      have hf0 : 0 < f := by omega
      dsimp only
      split
      · exact ⟨Nat.le_refl _, id, [], rfl⟩
      · rename_i hgt
        split
        · have := skipSpace_ge s (idx + 1)
          refine (ih (skipSpace s (idx + 1)) false d hf0 (by omega)).mono ?_
          rintro r ⟨h1, h2, h3⟩
          exact ⟨by omega, fun _ => h2 rfl, h3⟩
        · split
          · rename_i hns
            refine (parseProp_post s idx (by omega)).bindP ?_
            rintro ⟨key, i⟩ ⟨hi1, hi2, hi3⟩
            dsimp only at hi1 hi2 hi3 ⊢
            split
            · rename_i heq
              have heq : currentChar s i = cEq := by simpa using heq
              have hilt := lt_of_getElem? (currentChar_ne_zero heq (by decide))
              refine (parseProp_post s (i + 1) (by omega)).bindP ?_
              rintro ⟨value, j⟩ ⟨hj1, hj2, _⟩
              dsimp only at hj1 hj2 ⊢
              refine Post.bind ((addProperty_post n key value d).monoE (fun _ h => h.elim)) ?_
              intro d1 hd1 _
              have := skipSpace_ge s j
              refine (ih (skipSpace s j) can d1 hf0 (by omega)).mono ?_
              rintro r ⟨h1, h2, as, h3⟩
              refine ⟨by omega, h2, .pair key value :: as, ?_⟩
              simp only [buildAttrs, buildAttr, hd1, Out.bind_ok, h3]
            · rename_i hneq
              have hprog : idx < i := by
                by_contra hcon
                have hieq : i = idx := by omega
                subst hieq
                rw [currentChar_eq hs] at hneq
                refine hcon (hi3 ch hs ?_)
                simp at hns hgt hneq
                simp [isPropEnd, hns, hgt, hneq]
              refine Post.bind ((addBoolProperty_post n key d).monoE (fun _ h => h.elim)) ?_
              intro d1 hd1 _
              have := skipSpace_ge s i
              refine (ih (skipSpace s i) can d1 hf0 (by omega)).mono ?_
              rintro r ⟨h1, h2, as, h3⟩
              refine ⟨by omega, h2, .bool key :: as, ?_⟩
              simp only [buildAttrs, buildAttr, hd1, Out.bind_ok, h3]
          · rename_i hsp
            have hsp : isSpace ch = true := by
              simp at hsp
              unfold isSpace
              by_cases h : ch = cSp
              · simp [h]
              · simp [hsp h]
            have := skipSpace_gt hs hsp
            refine (ih (skipSpace s idx) can d hf0 (by omega)).mono ?_
            rintro r ⟨h1, h2, h3⟩
            exact ⟨by omega, h2, h3⟩

/-! ## Nodes -/

theorem createNode_eq {ty : NodeType} {d d' : Dom} {id : Nat} (h : createNode ty d = .ok (id, d')) :
    id = d.nodes.length ∧ d.nodes.length ≤ 65534 ∧
    d' = { d with nodes := d.nodes ++ [⟨ty, if ty = .text then .text [] else .tag 0⟩] } := by
  unfold createNode at h
  split at h
  · cases h
  · cases h; exact ⟨rfl, by omega, rfl⟩

theorem createNode_post (ty : NodeType) (d : Dom) : Post NoUB (fun _ => True) (createNode ty d) := by
  unfold createNode; split <;> trivial

theorem node_ok {d : Dom} {i : Nat} (h : i < d.nodes.length) : d.node i = .ok d.nodes[i] := by
  unfold Dom.node; rw [List.getElem?_eq_getElem h]

theorem setTag_post {tag : Str} {n : Nat} {can : Bool} {d : Dom} (h : n < d.nodes.length) :
    Post NoUB (fun _ => True) (setTag tag n can d) := by
  unfold setTag
  refine (insert_post _ _).bindP (fun r _ => ?_)
  dsimp only
  rw [node_ok (by exact h)]
  trivial

theorem parseTextNode_post {s tag : Str} {idx : Nat} {d : Dom} (h : TextStart s idx false) :
    Post NoUB (fun r => ∃ raw, NText raw ∧ idx ≤ r.2.1 ∧ (∀ c, s[idx]? = some c → c ≠ cLt → idx < r.2.1) ∧
      parseTextElement raw d = .ok (r.1, r.2.2)) (parseTextNode s idx tag d) := by
  unfold parseTextNode
  refine Post.bind (createNode_post _ _) ?_
  rintro ⟨id, d1⟩ hc _
  obtain ⟨e1, e2, e3⟩ := createNode_eq hc
  refine Post.bindP (textLoop_post s tag (s.length + 1) idx [] false (by omega) (by omega) h NText.nil
    (fun _ => rfl)) ?_
  rintro ⟨raw, i⟩ ⟨h1, h2, h3⟩
  dsimp only at h1 h2 h3 ⊢
  have hlt : id < d1.nodes.length := by rw [e3, e1]; simp
  rw [node_ok hlt]
  simp only [Out.bind_ok, Post.ok]
  refine ⟨raw, h1, h2, h3, ?_⟩
  unfold parseTextElement
  rw [hc]
  simp only [Out.bind_ok, node_ok hlt]

theorem mem_takeWhile {p : UInt8 → Bool} {l : Str} {x : UInt8} (h : x ∈ l.takeWhile p) : p x = true := by
  induction l with
  | nil => simp at h
  | cons a l ih =>
    by_cases ha : p a = true
    · simp [List.takeWhile, ha] at h
      rcases h with rfl | h
      · exact ha
      · exact ih h
    · simp [List.takeWhile, ha] at h

theorem takeWhile_eq_take {p : UInt8 → Bool} (l : Str) : l.take (l.takeWhile p).length = l.takeWhile p :=
  take_length_of_prefix (List.takeWhile_prefix p)

theorem parseDocumentNode_post {s : Str} {idx : Nat} {d : Dom} {c : UInt8} (hc : s[idx]? = some c)
    (ha : isAlphabetical c = true ∨ c = cBang) :
    Post (EQuote s) (fun r => idx < r.next ∧ ∃ attrs, EvOK (.elem r.tag r.canHaveChildren attrs) ∧
      buildElem r.tag r.canHaveChildren attrs d = .ok (r.id, r.dom))
      (parseDocumentNode s idx (c == cBang) d) := by
  have hte : isTagEnd c = false := by
    rcases ha with h | h
    · cases ht : isTagEnd c with
      | false => rfl
      | true =>
        simp [isTagEnd, isFormatting] at ht
        rcases ht with (rfl | rfl) | (rfl | rfl) | rfl <;> simp [isAlphabetical] at h <;> revert h <;> decide
    · subst h; decide
  have hslash : c ≠ cSlash := by
    rcases ha with h | h
    · rintro rfl; revert h; decide
    · subst h; decide
  unfold parseDocumentNode
  refine Post.bind ((createNode_post _ _).monoE (fun _ h => h.elim)) ?_
  rintro ⟨id, d1⟩ hcn _
  obtain ⟨e1, e2, e3⟩ := createNode_eq hcn
  dsimp only
  have hilt := lt_of_getElem? hc
  have hgt : idx < scanUntil isTagEnd (s.drop idx) idx := scanUntil_gt hc hte
  have hle : scanUntil isTagEnd (s.drop idx) idx ≤ max idx s.length := scanWhile_le _ _ _
  have htw : (s.drop idx).take (scanUntil isTagEnd (s.drop idx) idx - idx) =
      (s.drop idx).takeWhile (fun c => !isTagEnd c) := by
    unfold scanUntil
    rw [scanWhile_eq, Nat.add_sub_cancel_left]
    exact takeWhile_eq_take _
  generalize hi : scanUntil isTagEnd (s.drop idx) idx = i at *
  have hsl : Post (EQuote s) (fun b => b = true → idx + 1 < i) (tagSlashed s i) := by
    unfold tagSlashed
    split
    · have : ((i : Int) - 1) = ((i - 1 : Nat) : Int) := by omega
      rw [this, charAt_ok (by omega)]
      simp only [Out.bind_ok, Post.ok]
      intro hb
      by_contra hcon
      have hid : i - 1 = idx := by omega
      obtain ⟨hx, hy⟩ := List.getElem?_eq_some_iff.mp hc
      simp only [hid] at hb
      rw [hy] at hb
      exact hslash (by simpa using hb)
    · intro h; cases h
  refine hsl.bindP ?_
  intro slashed hsl
  -- the tag
  have htag : ∃ tag, subStr s (idx : Int) (if slashed = true then (i : Int) - idx - 1 else (i : Int) - idx) = .ok tag ∧
      (∃ rest, tag = c :: rest) ∧ (∀ x ∈ tag, isTagEnd x = false) := by
    have hall : ∀ x ∈ (s.drop idx).takeWhile (fun c => !isTagEnd c), isTagEnd x = false := by
      intro x hx
      simpa using mem_takeWhile hx
    have hk : ∀ k : Nat, 1 ≤ k → k ≤ i - idx → ∃ tag, subStr s (idx : Int) (k : Int) = .ok tag ∧
      (∃ rest, tag = c :: rest) ∧ (∀ x ∈ tag, isTagEnd x = false) := by
      intro k h1 h2
      refine ⟨(s.drop idx).take k, subStr_ok (by omega), ?_, ?_⟩
      · rw [drop_cons hc]
        obtain ⟨m, rfl⟩ : ∃ m, k = m + 1 := ⟨k - 1, by omega⟩
        exact ⟨_, rfl⟩
      · intro x hx
        apply hall
        rw [← htw]
        exact (List.take_subset_take_left _ h2) hx
    split
    · rename_i h
      have := hsl h
      have e : (i : Int) - idx - 1 = ((i - idx - 1 : Nat) : Int) := by omega
      rw [e]; exact hk _ (by omega) (by omega)
    · have e : (i : Int) - idx = ((i - idx : Nat) : Int) := by omega
      rw [e]; exact hk _ (by omega) (by omega)
  obtain ⟨tag, ht1, ⟨rest, ht2⟩, ht3⟩ := htag
  rw [ht1]
  simp only [Out.bind_ok]
  have hsk := skipSpace_ge s i
  refine Post.bindP (attrLoop_post s id (s.length + 1) (skipSpace s i) _ d1 (by omega) (by omega)) ?_
  rintro ⟨j, can, d2⟩ ⟨h1, h2, attrs, h3⟩
  dsimp only at h1 h2 h3 ⊢
  have hsame := buildAttrs_same h3
  have hlt : id < d2.nodes.length := by rw [hsame.nodes, e3, e1]; simp
  refine Post.bind ((setTag_post hlt).monoE (fun _ h => h.elim)) ?_
  intro d3 hd3 _
  simp only [Post.ok]
  refine ⟨by omega, attrs, ⟨?_, ⟨c, rest, ht2, ?_⟩, ht3⟩, ?_⟩
  · intro hv
    apply h2; simp [hv]
  · rcases ha with h | h
    · exact Or.inl h
    · right
      refine ⟨h, h2 ?_⟩
      subst h
      simp
  · unfold buildElem
    rw [hcn]; simp only [Out.bind_ok, h3, hd3]

/-! ## One iteration of the main loop -/

/-- The builder part of a parser state. -/
abbrev PState.b (st : PState) : BState := ⟨st.dom, st.stack, st.prev⟩

def StepOK (s : Str) (startLen : Nat) (st : PState) : PStep → Prop
  | .next st' => st.idx < st'.idx ∧ AtTok s st'.idx ∧
      (st'.b = st.b ∨ ∃ ev, EvOK ev ∧ runEv startLen st.b ev = .ok (.inl st'.b))
  | .null d => ∃ ev, EvOK ev ∧ runEv startLen st.b ev = .ok (.inr d)

theorem parseText_post {s : Str} {idx startLen : Nat} {st : PState} (hts : TextStart s idx false)
    (hprog : st.idx < idx ∨ (st.idx = idx ∧ ∃ c, s[idx]? = some c ∧ c ≠ cLt)) :
    Post (EQuote s) (StepOK s startLen st) (parseText s idx st) := by
  unfold parseText
  dsimp only
  refine Post.bindP ((parseTextNode_post hts).monoE (fun _ h => h.elim)) ?_
  rintro ⟨id, i, d⟩ ⟨raw, h1, h2, h3, h4⟩
  dsimp only at h2 h3 h4 ⊢
  simp only [Post.ok]
  have := skipSpace_ge s i
  refine ⟨?_, atTok_skipSpace s i, Or.inr ⟨.text raw, h1, ?_⟩⟩
  · show st.idx < skipSpace s i
    rcases hprog with h | ⟨h, c, hc, hne⟩
    · omega
    · have := h3 c hc hne; omega
  · simp only [runEv, PState.b, h4, Out.bind_ok]

theorem parseElement_post {s : Str} {startLen : Nat} {st : PState} {c : UInt8}
    (hc : s[st.idx + 1]? = some c) (ha : isAlphabetical c = true ∨ c = cBang) :
    Post (EQuote s) (StepOK s startLen st) (parseElement s (st.idx + 1) st) := by
  unfold parseElement
  rw [currentChar_eq hc]
  refine (parseDocumentNode_post hc ha).bindP ?_
  rintro r ⟨h1, attrs, h2, h3⟩
  dsimp only
  have := skipSpace_ge s r.next
  cases hcan : r.canHaveChildren with
  | true =>
    rw [hcan] at h2 h3
    simp only [if_true]
    split
    · rename_i hd
      refine ⟨_, h2, ?_⟩
      simp only [runEv, PState.b, h3, Out.bind_ok, if_true]
      exact if_pos hd
    · rename_i hd
      refine ⟨by show st.idx < skipSpace s r.next; omega, atTok_skipSpace s _, Or.inr ⟨_, h2, ?_⟩⟩
      simp only [runEv, PState.b, h3, Out.bind_ok, if_true]
      exact if_neg hd
  | false =>
    rw [hcan] at h2 h3
    simp only [Bool.false_eq_true, if_false]
    refine ⟨by show st.idx < skipSpace s r.next; omega, atTok_skipSpace s _, Or.inr ⟨_, h2, ?_⟩⟩
    simp only [runEv, PState.b, h3, Out.bind_ok, Bool.false_eq_true, if_false]

theorem parseEndTag_post (s : Str) (startLen : Nat) (st : PState) :
    StepOK s startLen st (parseEndTag s startLen st) := by
  have hp : st.idx < skipSpace s (scanUntil (· == cGt) (s.drop st.idx) st.idx + 1) := by
    have h1 := skipSpace_ge s (scanUntil (· == cGt) (s.drop st.idx) st.idx + 1)
    have h2 : st.idx ≤ scanUntil (· == cGt) (s.drop st.idx) st.idx := scanWhile_ge _ _ _
    omega
  unfold parseEndTag
  dsimp only
  split
  · rename_i id t rest hs
    split
    · rename_i hl
      refine ⟨hp, atTok_skipSpace s _, Or.inr ⟨.close, trivial, ?_⟩⟩
      simp only [runEv, PState.b, hs]
      rw [hs] at hl
      rw [if_pos hl]
    · exact ⟨hp, atTok_skipSpace s _, Or.inl rfl⟩
  · exact ⟨hp, atTok_skipSpace s _, Or.inl rfl⟩

theorem parseStep_post {E : Why → Prop} {junk : Nat → Out Bool} {s : Str} {startLen : Nat} {st : PState}
    (hj : st.stack = [] → ∀ i, Post E (fun _ => True) (junk i)) (hE : ∀ w, EQuote s w → E w)
    (hlt : st.idx < s.length) (hat : AtTok s st.idx) :
    Post E (StepOK s startLen st) (parseStep junk s startLen st) := by
  have hs : s[st.idx]? = some s[st.idx] := List.getElem?_eq_getElem hlt
  unfold parseStep
  rw [currentChar_eq hs]
  split
  · rename_i hlt'
    have hch : s[st.idx] = cLt := by simpa using hlt'
    refine ((isCommentTag_post s st.idx).monoE (fun _ h => h.elim)).bindP (fun cmt _ => ?_)
    split
    · refine ((skipComment_post s st.idx).monoE (fun _ h => h.elim)).bindP (fun i hi => ?_)
      have := skipSpace_ge s i
      exact ⟨by show st.idx < skipSpace s i; omega, atTok_skipSpace s _, Or.inl rfl⟩
    · refine Post.bindP (P := fun _ => True) ?_ (fun e _ => ?_)
      · unfold atEndTag
        split
        · exact (isEndDocumentTag_post _ _ _).monoE (fun _ h => h.elim)
        · rename_i hst
          split
          · exact hj hst _
          · trivial
      · split
        · exact parseEndTag_post s startLen st
        · dsimp only
          split
          · rename_i ha
            have ha' : isAlphabetical (currentChar s (st.idx + 1)) = true ∨
                currentChar s (st.idx + 1) = cBang := by simpa using ha
            have hne : currentChar s (st.idx + 1) ≠ 0 := by
              intro h0
              rw [h0] at ha'
              rcases ha' with h | h <;> revert h <;> decide
            exact (parseElement_post (currentChar_ne_zero rfl hne) ha').monoE hE
          · refine (parseText_post (Or.inr ⟨rfl, Or.inr ?_⟩) (Or.inl (by omega))).monoE hE
            have : prevAt s (st.idx + 1) = s[st.idx] := by
              simp [prevAt, List.getD, hs]
            rw [this, hch]; decide
  · rename_i hne
    refine (parseText_post (Or.inl hat) (Or.inr ⟨rfl, _, hs, ?_⟩)).monoE hE
    simpa using hne

/-- Events never make the nesting stack shorter than its initial length. -/
theorem runEv_stack {startLen : Nat} {b b' : BState} {ev : Ev} (h : runEv startLen b ev = .ok (.inl b'))
    (hl : startLen ≤ b.stack.length) : startLen ≤ b'.stack.length := by
  cases ev with
  | text raw =>
    simp only [runEv, Out.bind_eq_ok] at h
    obtain ⟨⟨id, d⟩, _, h⟩ := h
    cases h; exact hl
  | elem tag can attrs =>
    simp only [runEv, Out.bind_eq_ok] at h
    obtain ⟨⟨id, d⟩, _, h⟩ := h
    dsimp only at h
    split at h
    · split at h
      · cases h
      · cases h; simp; omega
    · cases h; exact hl
  | close =>
    simp only [runEv] at h
    split at h
    · rename_i hs
      split at h
      · cases h; rename_i h2; rw [hs] at h2; simp at h2 ⊢; omega
      · cases h; exact hl
    · cases h; exact hl

theorem parseLoop_post {E : Why → Prop} {junk : Nat → Out Bool} {s : Str} {startLen : Nat}
    (hj : startLen = 0 → ∀ i, Post E (fun _ => True) (junk i)) (hE : ∀ w, EQuote s w → E w) :
    ∀ (f : Nat) (st : PState), 0 < f → s.length < f + st.idx → AtTok s st.idx →
      startLen ≤ st.stack.length →
      Post E (fun r => ∃ evs, (∀ e ∈ evs, EvOK e) ∧ runEvs startLen evs st.b = .ok r)
        (parseLoop junk s startLen f st) := by
  intro f
  induction f with
  | zero => intro st h; omega
  | succ f ih =>
    intro st _ hf hat hl
    unfold parseLoop
    split
    · rename_i hlt
      refine Post.bindP (parseStep_post (fun h => hj (by rw [h] at hl; simpa using hl)) hE hlt hat) ?_
      intro r hr
      cases r with
      | next st' =>
        obtain ⟨h1, h2, h3⟩ := hr
        dsimp only
        have hl' : startLen ≤ st'.stack.length := by
          rcases h3 with h3 | ⟨ev, _, h3⟩
          · have : st'.stack = st.stack := congrArg BState.stack h3
            rw [this]; exact hl
          · exact runEv_stack (b' := st'.b) h3 hl
        refine (ih st' (by omega) (by omega) h2 hl').mono ?_
        rintro r ⟨evs, hev, hrun⟩
        rcases h3 with h3 | ⟨ev, hok, h3⟩
        · exact ⟨evs, hev, h3 ▸ hrun⟩
        · refine ⟨ev :: evs, ?_, ?_⟩
          · intro e he
            rcases List.mem_cons.mp he with rfl | he
            · exact hok
            · exact hev e he
          · simp only [runEvs, h3, Out.bind_ok, hrun]
      | null d =>
        obtain ⟨ev, hok, h3⟩ := hr
        refine ⟨[ev], by simpa using hok, ?_⟩
        simp only [runEvs, h3, Out.bind_ok]
    · exact ⟨[], by simp, rfl⟩

/-- Every run of `flo_html_parse` terminates, is undefined only for a trailing quote (or what the oracle
does), and if it returns it is the run of a list of well-formed events. -/
theorem parse_trace {E : Why → Prop} {junk : Nat → Out Bool} {s : Str} {d : Dom} {prev : Nat}
    {stack : List (Nat × Str)} (hj : stack = [] → ∀ i, Post E (fun _ => True) (junk i))
    (hE : ∀ w, EQuote s w → E w) :
    Post E (fun r => ∃ evs, (∀ e ∈ evs, EvOK e) ∧ runEvs stack.length evs ⟨d, stack, prev⟩ = .ok r)
      (parse junk s d prev stack) := by
  unfold parse
  refine parseLoop_post (fun h => hj (List.length_eq_zero_iff.mp h)) hE _ _ (by omega) ?_
    (atTok_skipSpace s 0) (Nat.le_refl _)
  have := skipSpace_ge s 0
  show s.length < s.length + 1 + skipSpace s 0
  omega

end Flo
