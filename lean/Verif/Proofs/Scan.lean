import Verif.Model.Parser
import Verif.Proofs.Post
/-!
# Scanning primitives: positions, reads in range, text chunks
-/
namespace Flo

/-! ## scanWhile / skipSpace -/

theorem scanWhile_eq (p : UInt8 → Bool) (l : Str) (i : Nat) :
    scanWhile p l i = i + (l.takeWhile p).length := by
  induction l generalizing i with
  | nil => rfl
  | cons c cs ih =>
    simp only [scanWhile, List.takeWhile]
    split
    · rename_i h; simp [h, ih]; omega
    · rename_i h; simp [h]

theorem getElem?_takeWhile_length {p : UInt8 → Bool} {l : Str} {c : UInt8}
    (h : l[(l.takeWhile p).length]? = some c) : p c = false := by
  induction l with
  | nil => simp at h
  | cons a l ih =>
    by_cases ha : p a = true
    · simp [List.takeWhile, ha] at h; exact ih h
    · simp [List.takeWhile, ha] at h; subst h; simpa using ha

theorem scanWhile_ge (p : UInt8 → Bool) (l : Str) (i : Nat) : i ≤ scanWhile p l i := by
  rw [scanWhile_eq]; omega

theorem scanWhile_le (p : UInt8 → Bool) (s : Str) (i : Nat) :
    scanWhile p (s.drop i) i ≤ max i s.length := by
  rw [scanWhile_eq]
  have : ((s.drop i).takeWhile p).length ≤ (s.drop i).length := (List.takeWhile_prefix p).length_le
  simp at this; omega

/-- The byte at which `scanWhile` stops does not satisfy the condition. -/
theorem scanWhile_stop {p : UInt8 → Bool} {s : Str} {i : Nat} {c : UInt8}
    (h : s[scanWhile p (s.drop i) i]? = some c) : p c = false := by
  rw [scanWhile_eq, ← List.getElem?_drop] at h
  exact getElem?_takeWhile_length h

theorem skipSpace_ge (s : Str) (i : Nat) : i ≤ skipSpace s i := scanWhile_ge _ _ _

theorem skipSpace_le (s : Str) (i : Nat) : skipSpace s i ≤ max i s.length := scanWhile_le _ _ _

theorem skipSpace_gt {s : Str} {i : Nat} {c : UInt8} (h : s[i]? = some c) (hc : isSpace c = true) :
    i < skipSpace s i := by
  unfold skipSpace
  rw [scanWhile_eq]
  have hd : s.drop i = c :: s.drop (i + 1) := by
    obtain ⟨hi, rfl⟩ := List.getElem?_eq_some_iff.mp h
    exact List.drop_eq_getElem_cons hi
  rw [hd]; simp [List.takeWhile, hc]

/-- Position `i` is at the end of the input or at a byte that is not white space. -/
def AtTok (s : Str) (i : Nat) : Prop := ∀ c, s[i]? = some c → isSpace c = false

theorem atTok_skipSpace (s : Str) (i : Nat) : AtTok s (skipSpace s i) :=
  fun _ h => scanWhile_stop h

theorem currentChar_eq {s : Str} {i : Nat} {c : UInt8} (h : s[i]? = some c) : currentChar s i = c := by
  simp [currentChar, List.getD, h]

theorem currentChar_ne_zero {s : Str} {i : Nat} {c : UInt8} (h : currentChar s i = c) (hc : c ≠ 0) :
    s[i]? = some c := by
  unfold currentChar at h
  rw [List.getD_eq_getElem?_getD] at h
  cases hs : s[i]? with
  | none => rw [hs] at h; exact absurd h.symm hc
  | some x => rw [hs] at h; simp at h; rw [h]

theorem lt_of_getElem? {s : Str} {i : Nat} {c : UInt8} (h : s[i]? = some c) : i < s.length :=
  (List.getElem?_eq_some_iff.mp h).1

/-! ## Reads -/

theorem charAt_ok {s : Str} {i : Nat} (h : i < s.length) : charAt s (i : Int) = .ok s[i] := by
  unfold charAt
  simp [h]

theorem subStr_ok {s : Str} {start len : Nat} (h : start + len ≤ s.length) :
    subStr s (start : Int) (len : Int) = .ok ((s.drop start).take len) := by
  unfold subStr
  rw [if_neg (by omega), if_neg (by omega), if_neg (by omega)]
  simp

theorem subStr_ok' {s : Str} {start len : Int} {a b : Nat} (ha : start = a) (hb : len = b)
    (h : a + b ≤ s.length) : subStr s start len = .ok ((s.drop a).take b) := by
  subst ha; subst hb; exact subStr_ok h

/-! ## Comments -/

theorem commentLoop_post {s : Str} : ∀ (rest : Str) (i : Nat), rest = s.drop i → 2 ≤ i →
    Post NoUB (fun j => i ≤ j) (commentLoop s rest i) := by
  intro rest
  induction rest with
  | nil => intro i _ _; simp [commentLoop]
  | cons c cs ih =>
    intro i h h2
    have hlt : i < s.length := by
      by_contra hge
      rw [List.drop_eq_nil_of_le (by omega)] at h
      cases h
    have htail : cs = s.drop (i + 1) := by
      rw [List.drop_eq_getElem_cons hlt] at h
      exact (List.cons.inj h).2
    unfold commentLoop
    have hsub : subStr s ((i : Int) - 2) 2 = .ok ((s.drop (i - 2)).take 2) :=
      subStr_ok' (by omega) rfl (by omega)
    have hrec := (ih (i + 1) htail (by omega)).mono (Q := fun j => i ≤ j) (fun j hj => by omega)
    split
    · rw [hsub]; simp only [Out.bind_ok]
      split
      · exact Nat.le_refl i
      · exact hrec
    · exact hrec

theorem skipComment_post (s : Str) (i : Nat) : Post NoUB (fun j => i + 5 ≤ j) (skipComment s i) := by
  unfold skipComment
  exact (commentLoop_post _ (i + 4) rfl (by omega)).bindP (fun j hj => by simp; omega)

/-! ## Tag tests never misread -/

theorem isCommentTag_post (s : Str) (i : Nat) : Post NoUB (fun _ => True) (isCommentTag s i) := by
  unfold isCommentTag
  split
  · rw [subStr_ok' (s := s) (start := (i : Int) + 1) (len := 3) (a := i + 1) (b := 3) (by omega) rfl (by omega)]; simp
  · trivial

theorem isCloseTag_post (s : Str) (i : Nat) (tag : Str) :
    Post NoUB (fun _ => True) (isCloseTag s i tag) := by
  unfold isCloseTag
  split
  · rw [subStr_ok' (s := s) (start := (i : Int) + 1) (len := 1) (a := i + 1) (b := 1) (by omega) rfl (by omega)]
    simp only [Out.bind_ok]
    split
    · rw [subStr_ok' (a := i + 2) (b := tag.length) (by omega) rfl (by omega)]; simp
    · trivial
  · trivial

theorem isEndDocumentTag_post (s : Str) (i : Nat) (tag : Str) :
    Post NoUB (fun _ => True) (isEndDocumentTag s i tag) := by
  unfold isEndDocumentTag
  dsimp only
  split
  · rename_i h
    rw [subStr_ok' (s := s) (start := ((i + 1 : Nat) : Int) + 1) (len := tag.length) (a := i + 2)
      (b := tag.length) (by omega) rfl (by omega)]; simp
  · trivial

/-! ## Text chunks -/

/-- `textNodeContinue` as a function of the previous byte. -/
def contP (prev ch : UInt8) : Bool := !isFormatting ch && (ch != cSp || prev != cSp)

/-- The byte before position `i` (a space at the beginning, which is how the code behaves there). -/
def prevAt (s : Str) (i : Nat) : UInt8 := if i = 0 then cSp else s.getD (i - 1) 0

/-- The bytes one text chunk takes from the remaining input. -/
def takeChunk (prev : UInt8) : Str → Str
  | [] => []
  | c :: cs => if contP prev c && c != cLt then c :: takeChunk c cs else []

/-- Drop one trailing space. -/
def trimLast (t : Str) : Str := if t.getLast? = some cSp then t.dropLast else t

theorem textNodeContinue_eq {s : Str} {i : Nat} (ch : UInt8) (h : i ≤ s.length) :
    textNodeContinue s i ch = .ok (contP (prevAt s i) ch) := by
  unfold textNodeContinue contP prevAt
  by_cases hf : isFormatting ch = true
  · simp [hf]
  · simp only [hf, if_false, Bool.false_eq_true]
    by_cases hs : ch = cSp
    · subst hs
      by_cases h0 : i = 0
      · subst h0; simp
      · have : ((i : Int) - 1) = ((i - 1 : Nat) : Int) := by omega
        rw [this, charAt_ok (by omega)]
        have hpos : i > 0 := by omega
        have hget : s[i-1]?.getD 0 = s[i-1]'(by omega) := by
          rw [List.getElem?_eq_getElem (by omega)]; rfl
        simp [h0, hpos, hget]
    · have : (ch != cSp) = true := by simpa using hs
      simp [this]

theorem chunkLoop_eq {s : Str} : ∀ (rest : Str) (i n : Nat), rest = s.drop i → i ≤ s.length →
    chunkLoop s rest i n =
      .ok (i + (takeChunk (prevAt s i) rest).length, n + (takeChunk (prevAt s i) rest).length) := by
  intro rest
  induction rest with
  | nil => intro i n _ _; simp [chunkLoop, takeChunk]
  | cons c cs ih =>
    intro i n h hi
    have hlt : i < s.length := by
      by_contra hge
      rw [List.drop_eq_nil_of_le (by omega)] at h
      cases h
    have hc : c = s[i] ∧ cs = s.drop (i + 1) := by
      rw [List.drop_eq_getElem_cons hlt] at h
      exact List.cons.inj h
    have hprev : prevAt s (i + 1) = c := by
      simp [prevAt, List.getD, List.getElem?_eq_getElem hlt, hc.1]
    unfold chunkLoop
    rw [textNodeContinue_eq c hi]
    simp only [Out.bind_ok, takeChunk]
    split
    · rw [ih (i + 1) (n + 1) hc.2 (by omega), hprev]
      simp; omega
    · simp

theorem takeChunk_prefix (p : UInt8) (l : Str) : takeChunk p l <+: l := by
  induction l generalizing p with
  | nil => simp [takeChunk]
  | cons c cs ih =>
    simp only [takeChunk]
    split
    · exact List.cons_prefix_cons.mpr ⟨rfl, ih c⟩
    · exact List.nil_prefix

theorem trimLast_length (t : Str) :
    (trimLast t).length = if t.getLast? = some cSp then t.length - 1 else t.length := by
  unfold trimLast; split <;> simp

theorem trimLast_prefix (t : Str) : trimLast t <+: t := by
  unfold trimLast
  split
  · exact List.dropLast_prefix t
  · exact List.prefix_refl t

theorem take_length_of_prefix {a b : Str} (h : a <+: b) : b.take a.length = a := by
  obtain ⟨t, rfl⟩ := h; simp

/-- What one chunk of `parseTextNode` does, when it cannot start right after a space it did not take. -/
theorem parseChunk_eq {s : Str} {i : Nat} (hi : i ≤ s.length)
    (h : takeChunk (prevAt s i) (s.drop i) ≠ [] ∨ i = 0 ∨ prevAt s i ≠ cSp) :
    parseChunk s i =
      .ok (i + (takeChunk (prevAt s i) (s.drop i)).length,
           trimLast (takeChunk (prevAt s i) (s.drop i))) := by
  unfold parseChunk
  rw [chunkLoop_eq _ i 0 rfl hi]
  generalize hch : takeChunk (prevAt s i) (s.drop i) = ch at *
  have hpre : ch <+: s.drop i := hch ▸ takeChunk_prefix _ _
  have hlen : ch.length ≤ s.length - i := by simpa using hpre.length_le
  simp only [Out.bind_ok, Nat.zero_add]
  have key : ∀ len : Nat, len = (trimLast ch).length →
      subStr s (i : Int) (len : Int) = .ok (trimLast ch) := by
    intro len hl
    have h1 := (trimLast_prefix ch).length_le
    rw [subStr_ok (by omega), hl, take_length_of_prefix ((trimLast_prefix ch).trans hpre)]
  by_cases h0 : i + ch.length > 0
  · rw [if_pos h0]
    have hcast : (((i + ch.length : Nat) : Int) - 1) = ((i + ch.length - 1 : Nat) : Int) := by omega
    rw [hcast, charAt_ok (by omega)]
    simp only [Out.bind_ok]
    by_cases hne : ch = []
    · subst hne
      have hip : i ≠ 0 := by simp at h0; omega
      have hp : prevAt s i ≠ cSp := by
        rcases h with h | h | h
        · exact absurd rfl h
        · exact absurd h hip
        · exact h
      have hget : s[i-1]? = some (s[i-1]'(by omega)) := List.getElem?_eq_getElem (by omega)
      have : s[i + ([] : Str).length - 1]'(by simp; omega) ≠ cSp := by
        simp [prevAt, hip, hget] at hp
        simpa using hp
      have hb : (s[i + ([] : Str).length - 1]'(by simp; omega) == cSp) = false := by simpa using this
      rw [hb]
      have := key 0 (by simp [trimLast])
      simp only [Bool.false_eq_true, if_false, List.length_nil]
      rw [show ((0 : Nat) : Int) = ((0 : Nat) : Int) from rfl, this]
      simp
    · have hpos : 0 < ch.length := List.length_pos_iff.mpr hne
      have hl : s[i + ch.length - 1]'(by omega) = ch[ch.length - 1]'(by omega) := by
        obtain ⟨t, ht⟩ := hpre
        have e1 : (s.drop i)[ch.length - 1]? = some (ch[ch.length - 1]'(by omega)) := by
          rw [← ht, List.getElem?_append_left (by omega)]
          exact List.getElem?_eq_getElem (by omega)
        rw [List.getElem?_drop] at e1
        obtain ⟨_, e⟩ := List.getElem?_eq_some_iff.mp e1
        rw [← e]; congr 1; omega
      have hgl : ch.getLast? = some (ch[ch.length - 1]'(by omega)) := by
        rw [List.getLast?_eq_getElem?]; exact List.getElem?_eq_getElem (by omega)
      rw [hl]
      by_cases hsp : ch[ch.length - 1]'(by omega) = cSp
      · have hb : (ch[ch.length - 1]'(by omega) == cSp) = true := by simpa using hsp
        rw [hb]; simp only [if_true]
        have : ((ch.length : Int) - 1) = ((ch.length - 1 : Nat) : Int) := by omega
        rw [this, key (ch.length - 1) (by rw [trimLast_length, hgl, hsp]; simp)]
        simp
      · have hb : (ch[ch.length - 1]'(by omega) == cSp) = false := by simpa using hsp
        rw [hb]; simp only [Bool.false_eq_true, if_false]
        rw [key ch.length (by rw [trimLast_length, hgl]; simp [hsp])]
        simp
  · rw [if_neg h0]
    have hi0 : i = 0 := by omega
    have hnil : ch = [] := List.length_eq_zero_iff.mp (by omega)
    subst hnil; subst hi0
    have := key 0 (by simp [trimLast])
    rw [show (([] : Str).length : Int) = ((0 : Nat) : Int) from rfl, this]
    simp

end Flo
