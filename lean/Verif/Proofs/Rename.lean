import Verif.Spec.Rename
import Verif.Proofs.RefLex
/-!
# The reference reader and renamed bytes
-/
namespace Flo.Ren
open Spec

variable {π : UInt8 → UInt8}

theorem _root_.Flo.Spec.Neutral.eq_iff (h : Neutral π) {c : UInt8} (hc : c ∈ markupBytes) (x : UInt8) : π x = c ↔ x = c := by
  constructor
  · intro e
    rw [← h.markup c hc] at e
    exact h.inj _ _ e
  · rintro rfl; exact h.markup _ hc

theorem _root_.Flo.Spec.Neutral.beq (h : Neutral π) {c : UInt8} (hc : c ∈ markupBytes) (x : UInt8) : (π x == c) = (x == c) := by
  rw [Bool.eq_iff_iff, beq_iff_eq, beq_iff_eq, h.eq_iff hc]

theorem _root_.Flo.Spec.Neutral.bne (h : Neutral π) {c : UInt8} (hc : c ∈ markupBytes) (x : UInt8) : (π x != c) = (x != c) := by
  show (!(π x == c)) = !(x == c)
  rw [h.beq hc]

theorem _root_.Flo.Spec.Neutral.str (h : Neutral π) {a b : Str} : a.map π = b.map π ↔ a = b :=
  ⟨fun e => List.map_injective_iff.2 (fun _ _ => h.inj _ _) e, fun e => e ▸ rfl⟩

theorem _root_.Flo.Spec.Neutral.lit (h : Neutral π) {m : Str} (hm : ∀ c ∈ m, c ∈ markupBytes) : m.map π = m := by
  conv_rhs => rw [← List.map_id m]
  exact List.map_congr_left fun c hc => h.markup c (hm c hc)

theorem _root_.Flo.Spec.Neutral.prefix (h : Neutral π) : ∀ (a b : Str), (a.map π).isPrefixOf (b.map π) = a.isPrefixOf b
  | [], _ => by simp [List.isPrefixOf]
  | _ :: _, [] => by simp [List.isPrefixOf]
  | x :: a, y :: b => by
    simp only [List.map_cons, List.isPrefixOf]
    rw [Spec.Neutral.prefix h a b]
    congr 1
    rw [Bool.eq_iff_iff, beq_iff_eq, beq_iff_eq]
    exact ⟨h.inj _ _, fun e => e ▸ rfl⟩

theorem _root_.Flo.Spec.Neutral.prefix_lit (h : Neutral π) {m : Str} (hm : ∀ c ∈ m, c ∈ markupBytes) (b : Str) : m.isPrefixOf (b.map π) = m.isPrefixOf b := by
  conv_lhs => rw [← h.lit hm]
  exact h.prefix m b

theorem blank_map (h : Neutral π) (c : UInt8) : blank (π c) = blank c := by
  unfold blank
  rw [h.beq (by decide), h.beq (by decide), h.beq (by decide), h.beq (by decide)]

theorem takeWhile_map' {p : UInt8 → Bool} (hp : ∀ c, p (π c) = p c) (r : Str) : (r.map π).takeWhile p = (r.takeWhile p).map π := by
  rw [List.takeWhile_map]; congr 2; funext c; exact hp c

theorem dropWhile_map' {p : UInt8 → Bool} (hp : ∀ c, p (π c) = p c) (r : Str) : (r.map π).dropWhile p = (r.dropWhile p).map π := by
  rw [List.dropWhile_map]; congr 2; funext c; exact hp c

theorem skipBlank_map (h : Neutral π) (r : Str) : skipBlank (r.map π) = (skipBlank r).map π := dropWhile_map' (blank_map h) r

theorem past_map (h : Neutral π) {m : Str} (hm : ∀ c ∈ m, c ∈ markupBytes) : ∀ r : Str, past m (r.map π) = (past m r).map π
  | [] => rfl
  | c :: r => by
    simp only [List.map_cons, past]
    have := h.prefix_lit hm (c :: r)
    rw [List.map_cons] at this
    rw [this, past_map h hm r]
    split
    · rw [← List.map_cons, List.map_drop]
    · rfl

theorem atComment_map (h : Neutral π) (r : Str) : atComment (r.map π) = atComment r := by
  unfold atComment
  rw [h.prefix_lit (by decide), List.length_map]

theorem pastComment_map (h : Neutral π) (r : Str) : pastComment (r.map π) = (pastComment r).map π := by
  unfold pastComment
  rw [← List.map_drop, past_map h (by decide)]

theorem atEnd_map (h : Neutral π) (name r : Str) : atEnd (name.map π) (r.map π) = atEnd name r := by
  unfold atEnd
  rw [List.length_map, List.length_map]
  have : b!"</" ++ name.map π = (b!"</" ++ name).map π := by rw [List.map_append, h.lit (m := b!"</") (by decide)]
  rw [this, h.prefix]

theorem atStart_map (h : Neutral π) : ∀ r : Str, atStart (r.map π) = atStart r
  | [] => rfl
  | [_] => rfl
  | a :: b :: r => by
    simp only [List.map_cons, atStart]
    rw [h.beq (by decide), h.beq (by decide), h.letter]

theorem textPart_map (h : Neutral π) : ∀ (f : Nat) (r : Str), textPart f (r.map π) = ((textPart f r).1.map π, (textPart f r).2.map π) := by
  intro f
  induction f with
  | zero => intro r; rfl
  | succ f ih =>
    intro r
    cases r with
    | nil => rfl
    | cons c r =>
      have hc := atComment_map h (c :: r)
      have hp := pastComment_map h (c :: r)
      rw [List.map_cons] at hc hp
      simp only [List.map_cons, textPart, h.eq_iff (c := 60) (by decide), hc, hp, ih]
      split
      · split
        · simp only [List.map_cons, h.markup 32 (by decide)]
        · rfl
      · rfl

theorem wordsFrom_map (h : Neutral π) : ∀ (t cur : Str), wordsFrom (cur.map π) (t.map π) = (wordsFrom cur t).map (·.map π)
  | [], cur => by
    simp only [List.map_nil, wordsFrom, List.map_eq_nil_iff]
    split <;> rfl
  | c :: t, cur => by
    have h0 := wordsFrom_map h t []
    rw [List.map_nil] at h0
    have h1 := wordsFrom_map h t (cur ++ [c])
    rw [List.map_append, List.map_cons, List.map_nil] at h1
    simp only [List.map_cons, wordsFrom, h.eq_iff (c := 32) (by decide), h.eq_iff (c := 9) (by decide), h.eq_iff (c := 10) (by decide),
      h.eq_iff (c := 13) (by decide), List.map_eq_nil_iff, h0, h1]
    split
    · split <;> rfl
    · rfl

theorem words_map (h : Neutral π) (t : Str) : words (t.map π) = (words t).map (·.map π) := wordsFrom_map h t []

theorem unwords_map (h : Neutral π) : ∀ ws : List Str, unwords (ws.map (·.map π)) = (unwords ws).map π
  | [] => rfl
  | [w] => by simp [unwords, List.intercalate]
  | w :: v :: ws => by
    have e : ∀ (w v : Str) ws, unwords (w :: v :: ws) = w ++ 32 :: unwords (v :: ws) := by
      intro w v ws; simp [unwords, List.intercalate, List.intersperse]
    have ih := unwords_map h (v :: ws)
    simp only [List.map_cons] at ih ⊢
    rw [e, e, ih, List.map_append, List.map_cons, h.markup 32 (by decide)]

theorem textValue_map (h : Neutral π) (r t : Str) : textValue (r.map π) (t.map π) = (textValue r t).map π := by
  unfold textValue
  rw [words_map h, unwords_map h]
  have : (r.map π).head?.any blank = r.head?.any blank := by
    cases r with
    | nil => rfl
    | cons c r => exact blank_map h c
  rw [this]
  simp only [ne_eq, List.map_eq_nil_iff]
  split
  · rw [List.map_cons, h.markup 32 (by decide)]
  · rfl

theorem word_map (h : Neutral π) (r : Str) : word (r.map π) = (word r).map fun x => (x.1.map π, x.2.map π) := by
  cases r with
  | nil => rfl
  | cons q r =>
    simp only [List.map_cons, word, h.eq_iff (c := 34) (by decide), h.eq_iff (c := 39) (by decide), List.map_eq_nil_iff]
    split
    · rename_i hq
      have hq' : q ∈ markupBytes := by rcases hq with rfl | rfl <;> decide
      split
      · rfl
      · rw [h.markup q hq', dropWhile_map' (p := (· != q)) (h.bne hq'), takeWhile_map' (p := (· != q)) (h.bne hq')]
        cases r.dropWhile (· != q) with
        | nil => simp
        | cons y r' => rfl
    · have hp : ∀ c, (fun c => !(blank c || c == 61 || c == 62)) (π c) = (fun c => !(blank c || c == 61 || c == 62)) c := by
        intro c; dsimp only; rw [blank_map h, h.beq (by decide), h.beq (by decide)]
      rw [← List.map_cons, dropWhile_map' hp, takeWhile_map' hp]
      rfl

def _root_.Flo.Spec.AttrRead.mapBytes (π : UInt8 → UInt8) : AttrRead → AttrRead
  | .pair k v => .pair (k.map π) (v.map π)
  | .flag k => .flag (k.map π)

theorem attributes_map (h : Neutral π) : ∀ (f : Nat) (r : Str) (content : Bool), attributes f (r.map π) content =
    (attributes f r content).map fun x => (x.1.map (AttrRead.mapBytes π), x.2.1, x.2.2.map π) := by
  intro f
  induction f with
  | zero => intro r content; rfl
  | succ f ih =>
    intro r content
    simp only [attributes, skipBlank_map h]
    cases skipBlank r with
    | nil => rfl
    | cons c r' =>
      have hw := word_map h (c :: r')
      rw [List.map_cons] at hw
      simp only [List.map_cons, h.eq_iff (c := 62) (by decide), h.eq_iff (c := 47) (by decide), hw]
      split
      · rfl
      · split
        · exact ih _ _
        · cases word (c :: r') with
          | none => rfl
          | some x =>
            obtain ⟨key, r1⟩ := x
            simp only [Option.map_some]
            have h61 : (r1.map π).head? = some 61 ↔ r1.head? = some 61 := by
              cases r1 with
              | nil => simp
              | cons a r1 => simp [h.eq_iff (c := 61) (by decide)]
            simp only [h61]
            split
            · rw [← List.map_drop, word_map h]
              cases word (r1.drop 1) with
              | none => rfl
              | some y =>
                obtain ⟨value, r2⟩ := y
                simp only [Option.map_some, ih, Option.map_map]
                rfl
            · simp only [ih, Option.map_map]
              rfl

theorem nameByte_map (h : Neutral π) (c : UInt8) : nameByte (π c) = nameByte c := by
  unfold nameByte; rw [blank_map h, h.beq (by decide)]

theorem slashed_map (h : Neutral π) (r : Str) : slashed (r.map π) = slashed r := by
  unfold slashed
  rw [takeWhile_map' (nameByte_map h), dropWhile_map' (nameByte_map h), List.getLast?_map, List.head?_map]
  congr 1
  · cases (r.takeWhile nameByte).getLast? with
    | none => rfl
    | some x => exact h.beq (c := 47) (by decide) x
  · cases (r.dropWhile nameByte).head? with
    | none => rfl
    | some x => exact h.beq (c := 62) (by decide) x

theorem startName_map (h : Neutral π) (r : Str) : startName (r.map π) = (startName r).map π := by
  unfold startName
  rw [slashed_map h, takeWhile_map' (nameByte_map h)]
  split
  · rw [List.map_dropLast]
  · rfl

theorem known_map (h : Neutral π) {n : Str} (hn : n ∈ knownNames) (t : Str) : t.map π = n ↔ t = n := by
  conv_lhs => rw [← h.known n hn]
  exact h.str

theorem neverContent_map (h : Neutral π) (t : Str) : NeverContent (t.map π) ↔ NeverContent t := by
  unfold NeverContent
  refine or_congr ?_ ?_
  · simp only [List.mem_cons, List.not_mem_nil, or_false]
    rw [known_map h (by decide), known_map h (by decide), known_map h (by decide), known_map h (by decide), known_map h (by decide),
      known_map h (by decide), known_map h (by decide), known_map h (by decide), known_map h (by decide), known_map h (by decide),
      known_map h (by decide), known_map h (by decide), known_map h (by decide)]
  · cases t with
    | nil => simp
    | cons c t => simp [h.eq_iff (c := 33) (by decide)]

theorem startTag_map (h : Neutral π) (r : Str) : startTag (r.map π) =
    (startTag r).map fun x => (x.1.map π, x.2.1.map (AttrRead.mapBytes π), x.2.2.1, x.2.2.2.map π) := by
  unfold startTag
  rw [List.length_map, slashed_map h, startName_map h, dropWhile_map' (nameByte_map h), decide_eq_decide.2 (neverContent_map h (startName r)),
    attributes_map h, Option.map_map, Option.map_map]
  rfl

def _root_.Flo.Spec.Token.mapBytes (π : UInt8 → UInt8) : Token → Token
  | .text t => .text (t.map π)
  | .start tag as content => .start (tag.map π) (as.map (AttrRead.mapBytes π)) content
  | .close => .close

theorem endTag_map (h : Neutral π) {stray stray' : Str → Bool} (hs : ∀ r, stray' (r.map π) = stray r) (r : Str) :
    ∀ names : List Str, endTag stray' (r.map π) (names.map (·.map π)) = endTag stray r names
  | [] => by simp only [List.map_nil, endTag]; rw [h.prefix_lit (by decide), hs]
  | name :: _ => by simp only [List.map_cons, endTag]; exact atEnd_map h name r

theorem tokens_map (h : Neutral π) {stray stray' : Str → Bool} (hs : ∀ r, stray' (r.map π) = stray r) : ∀ (f : Nat) (r : Str) (names : List Str),
    tokens stray' f (r.map π) (names.map (·.map π)) = ((tokens stray f r names).1.map (Token.mapBytes π), (tokens stray f r names).2) := by
  intro f
  induction f with
  | zero => intro r names; rfl
  | succ f ih =>
    intro r names
    simp only [tokens, skipBlank_map h]
    cases skipBlank r with
    | nil => rfl
    | cons c r' =>
      have e : π c :: r'.map π = (c :: r').map π := rfl
      have hi := fun r => ih r []
      simp only [List.map_nil] at hi
      simp only [List.map_cons]
      simp only [e, atComment_map h, pastComment_map h, endTag_map h hs, atStart_map h, startTag_map h, past_map h (m := b!">") (by decide), ih]
      split
      · rfl
      · split
        · cases names with
          | nil => simp only [List.map_nil, hi]
          | cons n ns => simp only [List.map_cons, ih]; rfl
        · split
          · cases startTag r' with
            | none => rfl
            | some x =>
              obtain ⟨tag, attrs, content, left⟩ := x
              simp only [Option.map_some]
              have e : (if content = true then tag.map π :: names.map (·.map π) else names.map (·.map π)) =
                  (if content = true then tag :: names else names).map (·.map π) := by split <;> rfl
              rw [e, ih]
              rfl
          · have e : (if π c = 60 then r'.map π else (c :: r').map π) = (if c = 60 then r' else c :: r').map π := by
              simp only [h.eq_iff (c := 60) (by decide)]; split <;> rfl
            rw [e]
            generalize (if c = 60 then r' else c :: r') = q
            simp only [List.length_map, textPart_map h, ih, textValue_map h]
            rfl

theorem docTokens_map (h : Neutral π) (s : Str) : docTokens (s.map π) = ((docTokens s).1.map (Token.mapBytes π), (docTokens s).2) := by
  unfold docTokens
  rw [List.length_map]
  exact tokens_map h (by intro r; rw [List.length_map]) _ s []

theorem fragTokens_map (h : Neutral π) (answer : Nat → Bool) (s : Str) :
    fragTokens answer (s.map π) = ((fragTokens answer s).1.map (Token.mapBytes π), (fragTokens answer s).2) := by
  unfold fragTokens
  rw [List.length_map]
  exact tokens_map h (by intro r; rw [List.length_map]) _ s []

/-! ## Trees -/

theorem filter_pair_map (as : List AttrRead) : (as.map (AttrRead.mapBytes π)).filterMap AttrRead.pair? =
    (as.filterMap AttrRead.pair?).map fun p => (p.1.map π, p.2.map π) := by
  rw [List.filterMap_map, List.map_filterMap]
  congr 1; funext a; cases a <;> rfl

theorem filter_flag_map (as : List AttrRead) : (as.map (AttrRead.mapBytes π)).filterMap AttrRead.flag? =
    (as.filterMap AttrRead.flag?).map (·.map π) := by
  rw [List.filterMap_map, List.map_filterMap]
  congr 1; funext a; cases a <;> rfl

theorem treesFrom_map : ∀ (f : Nat) (ts : List Token), treesFrom f (ts.map (Token.mapBytes π)) =
    (mapBytesAll π (treesFrom f ts).1, (treesFrom f ts).2.map (Token.mapBytes π)) := by
  intro f
  induction f with
  | zero => intro ts; rfl
  | succ f ih =>
    intro ts
    match ts with
    | [] => rfl
    | .close :: ts => rfl
    | .text t :: ts => simp only [List.map_cons, Token.mapBytes, treesFrom, ih]; rfl
    | .start tag as false :: ts =>
      simp only [List.map_cons, Token.mapBytes, treesFrom, ih, filter_pair_map, filter_flag_map]; rfl
    | .start tag as true :: ts =>
      simp only [List.map_cons, Token.mapBytes, treesFrom, ih, filter_pair_map, filter_flag_map]; rfl

theorem treesOf_map (ts : List Token) : treesOf (ts.map (Token.mapBytes π)) = mapBytesAll π (treesOf ts) := by
  unfold treesOf; rw [List.length_map, treesFrom_map]

theorem nestsBeyond_map (limit : Nat) : ∀ (ts : List Token) (n : Nat), nestsBeyond limit n (ts.map (Token.mapBytes π)) = nestsBeyond limit n ts
  | [], _ => rfl
  | .close :: ts, n => nestsBeyond_map limit ts _
  | .text _ :: ts, n => nestsBeyond_map limit ts _
  | .start _ _ false :: ts, n => nestsBeyond_map limit ts _
  | .start _ _ true :: ts, n => by
    simp only [List.map_cons, Token.mapBytes, nestsBeyond]; rw [nestsBeyond_map limit ts]

def _root_.Flo.Spec.Outcome.mapBytes (π : UInt8 → UInt8) : Outcome → Outcome
  | .document ts => .document (mapBytesAll π ts)
  | .null => .null
  | .outside => .outside

theorem outcome_map (h : Neutral π) (s : Str) : outcome (s.map π) = (outcome s).mapBytes π := by
  unfold outcome
  rw [docTokens_map h]
  dsimp only
  rw [nestsBeyond_map, treesOf_map]
  split
  · rfl
  · split <;> rfl

theorem fragOutcome_map (h : Neutral π) (answer : Nat → Bool) (s : Str) : fragOutcome answer (s.map π) = (fragOutcome answer s).mapBytes π := by
  unfold fragOutcome
  rw [fragTokens_map h]
  dsimp only
  rw [nestsBeyond_map, treesOf_map]
  split
  · rfl
  · split <;> rfl

def mapForms (π : UInt8 → UInt8) (us : List (Str × Bool)) : List (Str × Bool) := us.map fun u => (u.1.map π, u.2)

theorem tokenForms_map : ∀ ts : List Token, tokenForms (ts.map (Token.mapBytes π)) = mapForms π (tokenForms ts)
  | [] => rfl
  | .close :: ts => tokenForms_map ts
  | .text _ :: ts => tokenForms_map ts
  | .start _ _ _ :: ts => congrArg (_ :: ·) (tokenForms_map ts)

theorem firstForm_map (h : Neutral π) (us : List (Str × Bool)) (tag : Str) : firstForm (mapForms π us) (tag.map π) = firstForm us tag := by
  induction us with
  | nil => rfl
  | cons u us ih =>
    unfold firstForm mapForms at *
    rw [List.map_cons, List.find?_cons, List.find?_cons]
    have : ((u.1.map π == tag.map π) : Bool) = (u.1 == tag) := by rw [Bool.eq_iff_iff, beq_iff_eq, beq_iff_eq, h.str]
    dsimp only
    rw [this]
    cases u.1 == tag with
    | true => rfl
    | false => exact ih

/-! ## Printing -/

theorem _root_.Flo.Spec.Neutral.markup_lit (h : Neutral π) {m : Str} (hm : ∀ c ∈ m, c ∈ markupBytes) (x : Str) : m ++ x.map π = (m ++ x).map π := by
  rw [List.map_append, h.lit hm]

mutual
theorem print_map (h : Neutral π) {paired paired' : Str → Bool} (hp : ∀ tag, paired' (tag.map π) = paired tag) :
    ∀ t : Tree, (t.mapBytes π).print paired' = (t.print paired).map π
  | .text raw => rfl
  | .elem tag ps bs ts => by
    simp only [Tree.mapBytes, Tree.print, hp, printAll_map h hp ts, closing]
    have e1 : boolsText (bs.map (·.map π)) = (boolsText bs).map π := by
      unfold boolsText
      rw [List.flatMap_map, List.map_flatMap]
      congr 1; funext b
      exact h.markup_lit (by decide) b
    have e2 : pairsText (ps.map fun p => (p.1.map π, p.2.map π)) = (pairsText ps).map π := by
      unfold pairsText
      rw [List.flatMap_map, List.map_flatMap]
      congr 1; funext p
      simp only [List.map_append, h.lit (m := b!" ") (by decide), h.lit (m := b!"=\"") (by decide), h.lit (m := b!"\"") (by decide)]
    have e3 : tag.map π = b!"!DOCTYPE" ↔ tag = b!"!DOCTYPE" := known_map h (by decide) tag
    rw [e1, e2]
    simp only [e3]
    split
    · simp only [List.map_append, h.lit (m := b!"<") (by decide), h.lit (m := b!">") (by decide), h.lit (m := b!"</") (by decide)]
    · split
      · simp only [List.map_append, h.lit (m := b!"<") (by decide), h.lit (m := b!">") (by decide)]
      · simp only [List.map_append, h.lit (m := b!"<") (by decide), h.lit (m := b!"/>") (by decide)]
theorem printAll_map (h : Neutral π) {paired paired' : Str → Bool} (hp : ∀ tag, paired' (tag.map π) = paired tag) :
    ∀ ts : List Tree, printAll paired' (mapBytesAll π ts) = (printAll paired ts).map π
  | [] => rfl
  | t :: ts => by simp only [mapBytesAll, printAll, print_map h hp t, printAll_map h hp ts, List.map_append]
end

end Flo.Ren
