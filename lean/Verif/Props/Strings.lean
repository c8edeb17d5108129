import Verif.Spec.Strings
import Verif.Proofs.Memory
/-!
# String helpers (C53, C66)
-/
namespace Flo
open Spec

theorem charAt_get (s : Str) (n : Nat) (h : n < s.length) : charAt s n = .ok s[n] := by
  unfold charAt
  rw [if_neg (by omega)]
  simp [h]

/-! ## Comparison -/

theorem memSame_iff (mem : Int → UInt8) : ∀ (n : Nat) (p q : Int), memSame mem n p q = true ↔ bytesAt mem p n = bytesAt mem q n := by
  intro n
  induction n with
  | zero => intro p q; simp [memSame, bytesAt]
  | succ n ih =>
    intro p q
    have hb : ∀ p, bytesAt mem p (n + 1) = mem p :: bytesAt mem (p + 1) n := by
      intro p
      unfold bytesAt
      rw [List.range_succ_eq_map]
      simp only [List.map_cons, List.map_map]
      congr 1
      · simp
      · apply List.map_congr_left
        intro i _
        simp only [Function.comp]
        congr 1
        push_cast
        omega
    unfold memSame
    rw [hb p, hb q]
    by_cases h : mem p = mem q
    · rw [if_pos h, ih]
      constructor
      · intro h'; rw [h, h']
      · intro h'; exact (List.cons.inj h').2
    · rw [if_neg h]
      constructor
      · intro h'; exact absurd h' (by simp)
      · intro h'; exact absurd (List.cons.inj h').1 h

/-- **C53**: two strings compare equal exactly when they have the same bytes. -/
theorem C53_equals (mem : Int → UInt8) (a b : View) (ha : 0 ≤ a.len) (hb : 0 ≤ b.len) :
    stringEquals mem a b = true ↔ View.bytes a mem = View.bytes b mem := by
  unfold stringEquals View.bytes
  rw [Bool.and_eq_true, beq_iff_eq, memSame_iff]
  constructor
  · intro ⟨h1, h2⟩; rw [h2, h1]
  · intro h
    have hl := congrArg List.length h
    rw [bytesAt_length, bytesAt_length] at hl
    have hl' : a.len = b.len := by omega
    refine ⟨hl', ?_⟩
    rw [h, hl]

/-! ## Searching -/

theorem firstOccLoop_spec (s : Str) (ch : UInt8) : ∀ (f n : Nat), s.length < f + 1 + n →
    ∃ i, firstOccLoop s ch (f + 1) n = .ok i ∧ IsFirst s ch n i := by
  intro f
  induction f with
  | zero =>
    intro n h
    refine ⟨-1, ?_, .inl ⟨rfl, fun j hj => ?_⟩⟩
    · unfold firstOccLoop; rw [if_neg (by omega)]
    · rw [List.getElem?_eq_none (by omega)]; simp
  | succ f ih =>
    intro n h
    unfold firstOccLoop
    by_cases hn : n < s.length
    · rw [if_pos (by omega), charAt_get s n hn]
      simp only [Out.bind_ok]
      by_cases hc : s[n] = ch
      · rw [if_pos hc]
        refine ⟨n, rfl, .inr ⟨n, rfl, le_refl _, by rw [List.getElem?_eq_getElem hn, hc], fun j h1 h2 => by omega⟩⟩
      · rw [if_neg hc]
        obtain ⟨i, hi, hF⟩ := ih (n + 1) (by omega)
        refine ⟨i, by push_cast at hi; exact hi, ?_⟩
        have hne : s[n]? ≠ some ch := by rw [List.getElem?_eq_getElem hn]; simpa using hc
        rcases hF with ⟨h1, h2⟩ | ⟨k, h1, h2, h3, h4⟩
        · refine .inl ⟨h1, fun j hj => ?_⟩
          rcases Nat.eq_or_lt_of_le hj with rfl | hj
          · exact hne
          · exact h2 j hj
        · refine .inr ⟨k, h1, by omega, h3, fun j hj hk => ?_⟩
          rcases Nat.eq_or_lt_of_le hj with rfl | hj
          · exact hne
          · exact h4 j hj hk
    · rw [if_neg (by omega)]
      refine ⟨-1, rfl, .inl ⟨rfl, fun j hj => ?_⟩⟩
      rw [List.getElem?_eq_none (by omega)]; simp

/-- **C53**: the first occurrence at or after a position.  Positions past the end are allowed: nothing is found. -/
theorem C53_firstOccurenceOfFrom (s : Str) (ch : UInt8) (start : Nat) :
    ∃ i, firstOccurenceOfFrom s ch start = .ok i ∧ IsFirst s ch start i :=
  firstOccLoop_spec s ch s.length start (by omega)

/-- **C53**: the first occurrence in the string. -/
theorem C53_firstOccurenceOf (s : Str) (ch : UInt8) :
    ∃ i, firstOccurenceOf s ch = .ok i ∧ IsFirst s ch 0 i := C53_firstOccurenceOfFrom s ch 0

theorem lastOccLoop_spec (s : Str) (ch : UInt8) : ∀ (f n : Nat), n ≤ f → n ≤ s.length →
    (∀ j : Nat, n ≤ j → s[j]? ≠ some ch) →
    ∃ i, lastOccLoop s ch (f + 1) ((n : Int) - 1) = .ok i ∧ IsLast s ch i := by
  intro f
  induction f with
  | zero =>
    intro n hn _ h
    refine ⟨-1, ?_, .inl ⟨rfl, fun j => h j (by omega)⟩⟩
    unfold lastOccLoop; rw [if_neg (by omega)]
  | succ f ih =>
    intro n hn hl h
    unfold lastOccLoop
    by_cases h0 : n = 0
    · subst h0
      rw [if_neg (by omega)]
      exact ⟨-1, rfl, .inl ⟨rfl, fun j => h j (by omega)⟩⟩
    · obtain ⟨m, rfl⟩ : ∃ m, n = m + 1 := ⟨n - 1, by omega⟩
      have hm : m < s.length := by omega
      have e : ((m + 1 : Nat) : Int) - 1 = (m : Int) := by omega
      rw [if_pos (by omega), e, charAt_get s m hm]
      simp only [Out.bind_ok]
      by_cases hc : s[m] = ch
      · rw [if_pos hc]
        exact ⟨m, rfl, .inr ⟨m, rfl, by rw [List.getElem?_eq_getElem hm, hc], fun j hj => h j (by omega)⟩⟩
      · rw [if_neg hc]
        refine ih m (by omega) (by omega) (fun j hj => ?_)
        rcases Nat.eq_or_lt_of_le hj with rfl | hj
        · rw [List.getElem?_eq_getElem hm]; simpa using hc
        · exact h j hj

/-- **C53**: the last occurrence. -/
theorem C53_lastOccurenceOf (s : Str) (ch : UInt8) : ∃ i, lastOccurenceOf s ch = .ok i ∧ IsLast s ch i :=
  lastOccLoop_spec s ch s.length s.length (le_refl _) (le_refl _)
    (fun j hj => by rw [List.getElem?_eq_none hj]; simp)

theorem containsLoop_spec (s : Str) (ch : UInt8) : ∀ (f n : Nat), s.length < f + 1 + n →
    containsCharLoop s ch (f + 1) n = .ok (decide (ch ∈ s.drop n)) := by
  intro f
  induction f with
  | zero =>
    intro n h
    unfold containsCharLoop
    rw [if_neg (by omega), List.drop_eq_nil_of_le (by omega)]
    simp
  | succ f ih =>
    intro n h
    unfold containsCharLoop
    by_cases hn : n < s.length
    · rw [if_pos (by omega), charAt_get s n hn, List.drop_eq_getElem_cons hn]
      simp only [Out.bind_ok]
      by_cases hc : s[n] = ch
      · rw [if_pos hc]; simp [hc]
      · rw [if_neg hc]
        have := ih (n + 1) (by omega)
        push_cast at this
        rw [this]
        have hc' : ch ≠ s[n] := fun h => hc h.symm
        congr 2
        exact propext ⟨fun h => List.mem_cons_of_mem _ h, fun h => (List.mem_cons.1 h).resolve_left hc'⟩
    · rw [if_neg (by omega), List.drop_eq_nil_of_le (by omega)]
      simp

/-- **C53**: `flo_containsChar` decides membership. -/
theorem C53_containsChar (s : Str) (ch : UInt8) : containsChar s ch = .ok (decide (ch ∈ s)) := by
  have := containsLoop_spec s ch s.length 0 (by omega)
  simpa [containsChar] using this

theorem subStr_drop (s : Str) (start n : Nat) (h : start + n ≤ s.length) :
    subStr s start n = .ok ((s.drop start).take n) := by
  unfold subStr
  rw [if_neg (by omega), if_neg (by omega), if_neg (by omega)]
  simp

theorem splitStringLoop_spec (s : Str) (t : UInt8) (start : Nat) : ∀ (f m : Nat), s.length < f + 1 + (start + m) →
    start + m ≤ s.length → (∀ c ∈ (s.drop start).take m, c ≠ t) →
    splitStringLoop s t start (f + 1) ((start + m : Nat) : Int) = .ok ((s.drop start).takeWhile (· ≠ t)) := by
  have hend : ∀ (m : Nat), start + m = s.length → (∀ c ∈ (s.drop start).take m, c ≠ t) →
      subStr s start ((s.length : Int) - start) = .ok ((s.drop start).takeWhile (· ≠ t)) := by
    intro m hm h
    have e : (s.length : Int) - start = (m : Nat) := by omega
    have hl : (s.drop start).length = m := by simp; omega
    rw [e, subStr_drop s start m (by omega)]
    rw [List.take_of_length_le (by omega)] at h ⊢
    have ht := List.takeWhile_append_of_pos (p := (· ≠ t)) (l₂ := []) (fun c hc => by simpa using h c hc)
    simp only [List.append_nil, List.takeWhile_nil] at ht
    rw [ht]
  intro f
  induction f with
  | zero =>
    intro m h1 h2 h3
    unfold splitStringLoop
    rw [if_neg (by omega)]
    exact hend m (by omega) h3
  | succ f ih =>
    intro m h1 h2 h3
    unfold splitStringLoop
    by_cases hn : start + m < s.length
    · rw [if_pos (by omega), charAt_get s (start + m) hn]
      simp only [Out.bind_ok]
      by_cases hc : s[start + m] = t
      · rw [if_pos hc]
        have e : ((start + m : Nat) : Int) - start = (m : Nat) := by omega
        rw [e, subStr_drop s start m (by omega)]
        congr 1
        have hd : s.drop start = (s.drop start).take m ++ t :: (s.drop (start + m + 1)) := by
          conv_lhs => rw [← List.take_append_drop m (s.drop start)]
          rw [List.drop_drop, List.drop_eq_getElem_cons hn, hc]
        conv_rhs => rw [hd]
        rw [List.takeWhile_append_of_pos (fun c hc => by simpa using h3 c hc)]
        simp
      · rw [if_neg hc]
        have e : ((start + m : Nat) : Int) + 1 = ((start + (m + 1) : Nat) : Int) := by push_cast; ring
        rw [e]
        refine ih (m + 1) (by omega) (by omega) (fun c hcm => ?_)
        have hlt : m < (s.drop start).length := by simp; omega
        rw [List.take_succ_eq_append_getElem hlt, List.mem_append] at hcm
        rcases hcm with hcm | hcm
        · exact h3 c hcm
        · simp at hcm; rw [hcm]; exact hc
    · rw [if_neg (by omega)]
      exact hend m (by omega) h3

/-- **C53**: splitting at a byte yields the part from the start position up to (not including) the first occurrence of the
byte, or to the end. -/
theorem C53_splitString (s : Str) (t : UInt8) (start : Nat) (h : start ≤ s.length) :
    splitString s t start = .ok ((s.drop start).takeWhile (· ≠ t)) := by
  have := splitStringLoop_spec s t start s.length 0 (by omega) (by omega) (by simp)
  simpa [splitString] using this

/-! ## Hashing -/

/-- **C53**: the 64-bit hash used by the name tables is the fold `h ↦ (33 h) xor c` over the bytes, from 5381. -/
theorem C53_djb2 (s : Str) : stringDjb2 s = .ok (s.foldl (fun h c => (h * 33) ^^^ c.toUInt64) 5381) := by
  have key : ∀ (f n : Nat) (h : UInt64), s.length < f + 1 + n →
      djb2Loop s (f + 1) n h = .ok ((s.drop n).foldl (fun h c => (h * 33) ^^^ c.toUInt64) h) := by
    intro f
    induction f with
    | zero =>
      intro n h hl
      unfold djb2Loop
      rw [if_neg (by omega), List.drop_eq_nil_of_le (by omega)]; rfl
    | succ f ih =>
      intro n h hl
      unfold djb2Loop
      by_cases hn : n < s.length
      · rw [if_pos (by omega), charAt_get s n hn, List.drop_eq_getElem_cons hn]
        simp only [Out.bind_ok, List.foldl_cons]
        have := ih (n + 1) (djb2Step h s[n]) (by omega)
        push_cast at this
        rw [this]
        congr 2
        unfold djb2Step
        congr 1
        have e : h <<< 5 = h * 32 := by
          apply UInt64.toNat_inj.1
          rw [UInt64.toNat_shiftLeft, UInt64.toNat_mul]
          simp [Nat.shiftLeft_eq]
        rw [e]
        have : (33 : UInt64) = 32 + 1 := by rfl
        rw [this, UInt64.mul_add]
        simp
      · rw [if_neg (by omega), List.drop_eq_nil_of_le (by omega)]; rfl
  unfold stringDjb2
  have := key s.length 0 5381 (by omega)
  simpa using this

/-- The hash of the model of the name tables is the hash computed by the loop. -/
theorem hashDjb2_loop (s : Str) : stringDjb2 s = .ok (hashDjb2 s) := by
  have key : ∀ (f n : Nat) (h : UInt64), s.length < f + 1 + n →
      djb2Loop s (f + 1) n h = .ok ((s.drop n).foldl djb2Step h) := by
    intro f
    induction f with
    | zero =>
      intro n h hl
      unfold djb2Loop
      rw [if_neg (by omega), List.drop_eq_nil_of_le (by omega)]; rfl
    | succ f ih =>
      intro n h hl
      unfold djb2Loop
      by_cases hn : n < s.length
      · rw [if_pos (by omega), charAt_get s n hn, List.drop_eq_getElem_cons hn]
        simp only [Out.bind_ok, List.foldl_cons]
        have := ih (n + 1) (djb2Step h s[n]) (by omega)
        push_cast at this
        rw [this]
      · rw [if_neg (by omega), List.drop_eq_nil_of_le (by omega)]; rfl
  unfold stringDjb2
  have := key s.length 0 5381 (by omega)
  simpa [hashDjb2] using this

/-- **C53**: the other string hash, `h ↦ (h xor c) · 1111111111111111111` from 256. -/
theorem C53_skeeto (s : Str) :
    stringSkeeto s = .ok (s.foldl (fun h c => (h ^^^ c.toUInt64) * 1111111111111111111) 256) := by
  have key : ∀ (f n : Nat) (h : UInt64), s.length < f + 1 + n →
      skeetoLoop s (f + 1) n h = .ok ((s.drop n).foldl (fun h c => (h ^^^ c.toUInt64) * 1111111111111111111) h) := by
    intro f
    induction f with
    | zero =>
      intro n h hl
      unfold skeetoLoop
      rw [if_neg (by omega), List.drop_eq_nil_of_le (by omega)]; rfl
    | succ f ih =>
      intro n h hl
      unfold skeetoLoop
      by_cases hn : n < s.length
      · rw [if_pos (by omega), charAt_get s n hn, List.drop_eq_getElem_cons hn]
        simp only [Out.bind_ok, List.foldl_cons]
        have := ih (n + 1) ((h ^^^ (s[n]).toUInt64) * 1111111111111111111) (by omega)
        push_cast at this
        rw [this]
      · rw [if_neg (by omega), List.drop_eq_nil_of_le (by omega)]; rfl
  unfold stringSkeeto
  have := key s.length 0 0x100 (by omega)
  simpa using this

/-! ## Copying and concatenation -/

theorem bytesAt_append (mem : Int → UInt8) (p : Int) (m n : Nat) :
    bytesAt mem p (m + n) = bytesAt mem p m ++ bytesAt mem (p + m) n := by
  unfold bytesAt
  rw [List.range_add, List.map_append, List.map_map]
  congr 1
  apply List.map_congr_left
  intro i _
  simp only [Function.comp]
  congr 1
  push_cast
  ring

theorem bytesAt_memCopy (mem : Int → UInt8) (p q : Int) (n : Nat) :
    bytesAt (memCopy p q n mem) p n = bytesAt mem q n := by
  unfold bytesAt
  apply List.map_congr_left
  intro i hi
  rw [List.mem_range] at hi
  unfold memCopy
  rw [if_pos ⟨by omega, by omega⟩]
  congr 1
  ring

theorem bytesAt_memCopy_other (mem : Int → UInt8) (p q r : Int) (n k : Nat) (h : p + n ≤ r ∨ r + k ≤ p) :
    bytesAt (memCopy p q n mem) r k = bytesAt mem r k := by
  apply bytesAt_congr
  intro x h1 h2
  unfold memCopy
  rw [if_neg (by omega)]

/-- **C66**: concatenation.  For two strings outside the free part of the arena, the result lies in the arena, holds the
bytes of the first followed by those of the second, and nothing else changes; or the arena is exhausted. -/
theorem C66_append (a : Arena) (s1 s2 : View) (h1 : 0 ≤ s1.len) (h2 : 0 ≤ s2.len)
    (_d1 : s1.buf + s1.len ≤ a.beg ∨ a.stop ≤ s1.buf) (d2 : s2.buf + s2.len ≤ a.beg ∨ a.stop ≤ s2.buf) :
    (∃ v a', stringAppend s1 s2 a = .ok (v, a') ∧ a.beg ≤ v.buf ∧ v.buf + v.len ≤ a.stop ∧ a'.beg = v.buf + v.len ∧
      a'.stop = a.stop ∧ v.len = s1.len + s2.len ∧
      View.bytes v a'.mem = View.bytes s1 a.mem ++ View.bytes s2 a.mem ∧
      (∀ x, x < v.buf ∨ v.buf + v.len ≤ x → a'.mem x = a.mem x)) ∨
    (stringAppend s1 s2 a = .longjmp ∧ a.stop - a.beg < s1.len + s2.len) := by
  obtain ⟨n1, e1⟩ := Int.eq_ofNat_of_zero_le h1
  obtain ⟨n2, e2⟩ := Int.eq_ofNat_of_zero_le h2
  have hpad : arenaPadding a.beg 1 = 0 := by rw [arenaPadding_eq _ _ isAlign_one]; exact Int.emod_one _
  unfold stringAppend arenaAlloc
  rw [hpad]
  by_cases hc : s1.len + s2.len > a.stop - a.beg
  · right
    refine ⟨?_, by omega⟩
    dsimp only
    rw [if_pos (by rw [Int.tdiv_one]; omega)]
    rfl
  · left
    dsimp only
    rw [if_neg (by rw [Int.tdiv_one]; omega)]
    simp only [Out.bind_ok]
    refine ⟨_, _, rfl, ?_⟩
    dsimp only
    refine ⟨by omega, by omega, by ring, rfl, rfl, ?_, ?_⟩
    · unfold View.bytes
      dsimp only
      rw [e1, e2]
      have e : ((n1 : Int) + (n2 : Int)).toNat = n1 + n2 := by omega
      simp only [Bool.false_eq_true, if_false, add_zero, Int.toNat_natCast]
      rw [e, bytesAt_append, bytesAt_memCopy, bytesAt_memCopy_other _ _ _ _ _ _ (by omega), bytesAt_memCopy,
        bytesAt_memCopy_other _ _ _ _ _ _ (by omega)]
    · intro x hx
      simp only [Bool.false_eq_true, if_false]
      unfold memCopy
      rw [if_neg (by omega), if_neg (by omega)]

/-- **C66**: copying into a buffer with room for the string *and one more byte*: the copy, a zero byte, and nothing else
is written. -/
theorem C66_copy_partial (dest src : View) (mem : Int → UInt8) (hs : 0 ≤ src.len) (_hroom : src.len < dest.len) :
    let r := stringCopy dest src mem
    r.1.buf = dest.buf ∧ View.bytes r.1 r.2 = View.bytes src mem ∧ r.2 (dest.buf + src.len) = 0 ∧
    (∀ x, x < dest.buf ∨ dest.buf + src.len < x → r.2 x = mem x) := by
  obtain ⟨n, e⟩ := Int.eq_ofNat_of_zero_le hs
  refine ⟨rfl, ?_, ?_, ?_⟩
  · unfold View.bytes stringCopy
    dsimp only
    rw [e, Int.toNat_natCast, memWrite_other (by simp), bytesAt_memCopy]
  · unfold stringCopy memWrite
    simp
  · intro x hx
    unfold stringCopy memWrite memCopy
    simp only [List.length_cons, List.length_nil]
    rw [if_neg (by omega), if_neg (by omega)]

/-- The terminating zero byte is written even if the destination is exactly as long as the source, which the assertion in
the source allows: the byte behind the destination is overwritten. -/
theorem C66_violated : ∃ (dest src : View) (mem : Int → UInt8), 0 ≤ src.len ∧ src.len ≤ dest.len ∧
    (stringCopy dest src mem).2 (dest.buf + dest.len) ≠ mem (dest.buf + dest.len) :=
  ⟨⟨100, 2⟩, ⟨200, 2⟩, fun _ => 7, by decide, by decide, by decide⟩

/-- C66 exactly: a copy writes the bytes of the source and one zero byte behind them, whatever the length of the
destination; so of the copies the assertion in the source allows, those into a destination exactly as long as the source
write one byte beyond it, and the others stay inside. -/
theorem C66_copy_exact_partial (dest src : View) (mem : Int → UInt8) (hs : 0 ≤ src.len) :
    (stringCopy dest src mem).1 = ⟨dest.buf, src.len⟩ ∧
    View.bytes (stringCopy dest src mem).1 (stringCopy dest src mem).2 = View.bytes src mem ∧
    (stringCopy dest src mem).2 (dest.buf + src.len) = 0 ∧
    (∀ x, x < dest.buf ∨ dest.buf + src.len < x → (stringCopy dest src mem).2 x = mem x) ∧
    (src.len ≤ dest.len →
      ((∀ m : Int → UInt8, ∀ x, x < dest.buf ∨ dest.buf + dest.len ≤ x → (stringCopy dest src m).2 x = m x) ↔
        src.len < dest.len)) := by
  have key : ∀ m : Int → UInt8, (stringCopy dest src m).1 = ⟨dest.buf, src.len⟩ ∧
      View.bytes (stringCopy dest src m).1 (stringCopy dest src m).2 = View.bytes src m ∧
      (stringCopy dest src m).2 (dest.buf + src.len) = 0 ∧
      (∀ x, x < dest.buf ∨ dest.buf + src.len < x → (stringCopy dest src m).2 x = m x) := by
    intro m
    obtain ⟨h1, h2, h3, h4⟩ := C66_copy_partial ⟨dest.buf, src.len + 1⟩ src m hs (by show src.len < src.len + 1; omega)
    exact ⟨rfl, h2, h3, h4⟩
  obtain ⟨h1, h2, h3, h4⟩ := key mem
  refine ⟨h1, h2, h3, h4, fun hle => ⟨fun h => ?_, fun hlt m x hx => (key m).2.2.2 x (by omega)⟩⟩
  by_contra hc
  have he : src.len = dest.len := by omega
  have h5 := h (fun _ => 7) (dest.buf + dest.len) (Or.inr (by omega))
  rw [← he, (key _).2.2.1] at h5
  cases h5

/-! Concrete cases. -/
example : splitString b!"a=b=c" cEq 2 = .ok b!"b" ∧ firstOccurenceOfFrom b!"a=b=c" cEq 2 = .ok 3 ∧
    lastOccurenceOf b!"a=b=c" cEq = .ok 3 ∧ lastOccurenceOf b!"abc" cEq = .ok (-1) ∧ containsChar b!"abc" cEq = .ok false := by
  decide +kernel

example : (stringAppend ⟨0, 2⟩ ⟨1, 3⟩ ⟨10, 20, fun x => UInt8.ofNat x.toNat⟩).bind
    (fun r => .ok (r.1, View.bytes r.1 r.2.mem)) = .ok (⟨10, 5⟩, [0, 1, 1, 2, 3]) := by decide +kernel

end Flo
