import Verif.Proofs.Log
import Mathlib.Data.List.Induction
/-!
# C43, C44, C57, C60, C61, C62: the buffered writer
-/
namespace Flo
open Spec

/-- **C43** For every capacity, every state of the buffer, every sequence of operations and every pattern of partial
writes without errors: the execution succeeds (terminates, never stores outside the buffer) and the bytes delivered
followed by the bytes still buffered are what they were before, followed by the texts of the operations in order. -/
theorem C43_ordered (ops : List LogOp) (b : WBuf) (hcap : 0 < b.cap) (hlen : b.data.length ≤ b.cap)
    (hw : NoErrors b.sched) (hs : ∀ s k fl, LogOp.minSize s k fl ∈ ops → s.length < 2 ^ 32) :
    ∃ b', runLogs ops b = .ok b' ∧ b'.sink ++ b'.data = b.sink ++ b.data ++ ops.flatMap LogOp.text ∧
      b'.data.length ≤ b'.cap := by
  obtain ⟨b', e, h⟩ := runLogs_spec ops b hcap hlen (Or.inl hw) hs
  exact ⟨b', e, h.exact hw, h.len hlen⟩

/-- Non-vacuity: a buffer of three bytes and a file that takes one byte, then none, then two. -/
example : (∃ b', runLogs [.append b!"hello" ⟨true, false⟩, .repeated 42 4 ⟨false, true⟩, .minSize b!"x" 3 ⟨true, false⟩]
      ⟨3, [], [], [some 1, some 0, some 2]⟩ = .ok b' ∧ b'.sink ++ b'.data = b!"hello\n****x  \n") ∧
    NoErrors [some 1, some 0, some 2] := by
  refine ⟨⟨_, rfl, by decide +kernel⟩, ?_⟩
  intro r hr; simp at hr; rcases hr with rfl | rfl | rfl <;> simp

/-- **C43** After a final flush that reports success nothing is left in the buffer: everything has been delivered. -/
theorem C43_flush_delivers (ops : List LogOp) (b : WBuf) (hcap : 0 < b.cap) (hlen : b.data.length ≤ b.cap)
    (hw : NoErrors b.sched) (hs : ∀ s k fl, LogOp.minSize s k fl ∈ ops → s.length < 2 ^ 32) :
    ∃ b' b'', runLogs ops b = .ok b' ∧ flushBuffer b' = .ok (true, b'') ∧ b''.data = [] ∧
      b''.sink = b.sink ++ b.data ++ ops.flatMap LogOp.text := by
  obtain ⟨b', e, h⟩ := runLogs_spec ops b hcap hlen (Or.inl hw) hs
  obtain ⟨u, hu⟩ := h.suffix
  obtain ⟨done, b'', e2, h2⟩ := flushBuffer_spec b'
  have hd : done = true := by
    cases done with
    | true => rfl
    | false => exact absurd rfl (NoErrors.suffix hw hu none (h2.fail rfl).2.2.2)
  subst hd
  exact ⟨b', b'', e, e2, (h2.ok rfl).1, by rw [(h2.ok rfl).2]; exact h.exact hw⟩

/-- **C60** (violated) A write error after a partial write: the bytes already accepted by the kernel are delivered
again, although the append reports success. -/
theorem C60_violated : ∃ (b b' : WBuf), b.sink = [] ∧ b.data = [] ∧ appendToBuffer b!"abc" ⟨false, false⟩ b = .ok b' ∧
    b'.sink ++ b'.data = b!"aabc" :=
  ⟨⟨2, [], [], [some 1, none]⟩, _, rfl, rfl, rfl, by decide +kernel⟩

/-- **C60** (violated) A newline requested while the buffer is full and the write fails is stored one byte behind the
buffer. -/
theorem C60_violated_newline : ∃ (b : WBuf), b.data.length ≤ b.cap ∧ 0 < b.cap ∧
    appendToBuffer b!"ab" ⟨true, false⟩ b = .ub .oobIndex :=
  ⟨⟨2, [], [], [none]⟩, by decide, by decide, by decide +kernel⟩

/-- **C60** (what holds) With any pattern of partial writes and errors, operations that ask for no newline stay inside the
buffer and lose nothing: every text appears completely and in order (with possible repetitions in between) in what was
delivered and what is buffered. -/
theorem C60_nothing_lost_partial (ops : List LogOp) (b : WBuf) (hcap : 0 < b.cap) (hlen : b.data.length ≤ b.cap)
    (hnl : ∀ op ∈ ops, op.newline = false) (hs : ∀ s k fl, LogOp.minSize s k fl ∈ ops → s.length < 2 ^ 32) :
    ∃ b', runLogs ops b = .ok b' ∧ (b.sink ++ b.data ++ ops.flatMap LogOp.text).Sublist (b'.sink ++ b'.data) ∧
      b'.data.length ≤ b'.cap := by
  obtain ⟨b', e, h⟩ := runLogs_spec ops b hcap hlen (Or.inr hnl) hs
  exact ⟨b', e, h.sub, h.len hlen⟩

/-- **C60** A flush reports failure exactly when a write failed, and then keeps what was buffered. -/
theorem C60_flush_reports_partial (b : WBuf) : ∃ done b', flushBuffer b = .ok (done, b') ∧
    (done = true → b'.data = [] ∧ b'.sink = b.sink ++ b.data) ∧
    (done = false → none ∈ b.sched ∧ b'.data = b.data ∧ ∃ out, out <+: b.data ∧ b'.sink = b.sink ++ out) := by
  obtain ⟨done, b', e, h⟩ := flushBuffer_spec b
  exact ⟨done, b', e, h.ok, fun hd => ⟨(h.fail hd).2.2.2, (h.fail hd).1, (h.fail hd).2.1⟩⟩

/-- **C60** exactly when memory is corrupted: an append that asks for no newline never leaves the buffer; one that asks
for a newline stores it behind the buffer exactly when its text has filled the buffer and the flush that should make room
fails. -/
theorem C60_newline_exact_partial (s : Str) (fl : LFlags) (b : WBuf) (hcap : 0 < b.cap) (hlen : b.data.length ≤ b.cap) :
    ∃ b1, appendToBuffer s ⟨false, false⟩ b = .ok b1 ∧
      ((∃ b', appendToBuffer s fl b = .ok b') ∨ appendToBuffer s fl b = .ub .oobIndex) ∧
      (appendToBuffer s fl b = .ub .oobIndex ↔
        fl.newline = true ∧ b1.data.length = b1.cap ∧ ∃ b2, flushBuffer b1 = .ok (false, b2)) := by
  obtain ⟨b1, e1, h1⟩ := appendLoop_spec (s.length + b.sched.length + 2) s b hcap hlen (by unfold full; split <;> omega)
  have hl1 := h1.len hlen
  refine ⟨b1, by unfold appendToBuffer; rw [e1]; rfl, ?_⟩
  have e2 : appendToBuffer s fl b = applyFlags fl b1 := by unfold appendToBuffer; rw [e1]; rfl
  rw [e2]
  have hflush : ∀ b : WBuf, ∃ b', (if fl.flush then flushIgnore b else .ok b) = .ok b' := by
    intro b
    by_cases hf : fl.flush
    · obtain ⟨done, b', e, _⟩ := flushBuffer_spec b
      exact ⟨b', by rw [if_pos hf]; unfold flushIgnore; rw [e]; rfl⟩
    · exact ⟨b, by rw [if_neg hf]⟩
  unfold applyFlags
  by_cases hn : fl.newline
  swap
  · obtain ⟨b', e'⟩ := hflush b1
    rw [if_neg hn]
    simp only [Out.bind_ok]
    rw [e']
    exact ⟨Or.inl ⟨b', rfl⟩, ⟨fun h => (by cases h), fun h => absurd h.1 hn⟩⟩
  rw [if_pos hn]
  unfold applyNewline
  by_cases hful : b1.data.length ≥ b1.cap
  swap
  · rw [if_neg hful]
    simp only [Out.bind_ok]
    unfold putByte
    rw [if_neg hful]
    simp only [Out.bind_ok]
    obtain ⟨b', e'⟩ := hflush { b1 with data := b1.data ++ [cNl] }
    rw [e']
    exact ⟨Or.inl ⟨b', rfl⟩, ⟨fun h => (by cases h), fun h => absurd h.2.1 (by omega)⟩⟩
  rw [if_pos hful]
  obtain ⟨done, b2, e3, h3⟩ := flushBuffer_spec b1
  unfold flushIgnore
  rw [e3]
  simp only [Out.bind_ok]
  have hc2 : b2.cap = b1.cap := h3.cap
  cases done with
  | true =>
    have := (h3.ok rfl).1
    unfold putByte
    rw [if_neg (by rw [this, hc2, h1.cap]; simp; omega)]
    simp only [Out.bind_ok]
    obtain ⟨b', e'⟩ := hflush { b2 with data := b2.data ++ [cNl] }
    unfold flushIgnore at e'
    rw [e']
    refine ⟨Or.inl ⟨b', rfl⟩, ⟨fun h => (by cases h), ?_⟩⟩
    rintro ⟨_, _, b3, h⟩
    cases h
  | false =>
    have := (h3.fail rfl).1
    unfold putByte
    rw [if_pos (by rw [this, hc2]; exact hful)]
    exact ⟨Or.inr rfl, ⟨fun _ => ⟨hn, by omega, b2, rfl⟩, fun _ => rfl⟩⟩

/-- **C44** Appending any `uint64_t` appends its decimal representation, padded to the requested width. -/
theorem C44_unsigned (n : UInt64) (k : UInt8) (fl : LFlags) (b : WBuf) (hcap : 0 < b.cap) (hlen : b.data.length ≤ b.cap)
    (hw : NoErrors b.sched) :
    ∃ t, IsDecimal t n.toNat ∧
      (∃ b', appendUint64 n fl b = .ok b' ∧ b'.sink ++ b'.data = b.sink ++ b.data ++ (t ++ lineEnd fl)) ∧
      (∃ b', appendUint64MinSize n k.toNat fl b = .ok b' ∧
        b'.sink ++ b'.data = b.sink ++ b.data ++ (t ++ pad t k.toNat ++ lineEnd fl)) := by
  obtain ⟨t, e, ht, hl, _⟩ := uint64Text_spec n
  refine ⟨t, ht, ?_, ?_⟩
  · obtain ⟨b', e', h⟩ := runLog_spec (.append t fl) b hcap hlen (fun _ => hw) (by intro _ _ _ h; cases h)
    exact ⟨b', by unfold appendUint64; rw [e]; exact e', h.exact hw⟩
  · obtain ⟨b', e', h⟩ := runLog_spec (.minSize t k fl) b hcap hlen (fun _ => hw) (by intro s _ _ h; cases h; omega)
    exact ⟨b', by unfold appendUint64MinSize; rw [e]; exact e', h.exact hw⟩

/-- **C44** Appending any `ptrdiff_t` appends its decimal representation, with a minus sign iff it is negative, padded
to the requested width. -/
theorem C44_signed (v : Int) (h1 : -2 ^ 63 ≤ v) (h2 : v < 2 ^ 63) (k : UInt8) (fl : LFlags) (b : WBuf)
    (hcap : 0 < b.cap) (hlen : b.data.length ≤ b.cap) (hw : NoErrors b.sched) :
    ∃ t, IsDecimalInt t v ∧
      (∃ b', appendPtrdiff v fl b = .ok b' ∧ b'.sink ++ b'.data = b.sink ++ b.data ++ (t ++ lineEnd fl)) ∧
      (∃ b', appendPtrdiffMinSize v k.toNat fl b = .ok b' ∧
        b'.sink ++ b'.data = b.sink ++ b.data ++ (t ++ pad t k.toNat ++ lineEnd fl)) := by
  obtain ⟨t, e, ht, hl⟩ := ptrdiffText_spec v h1 h2
  refine ⟨t, ht, ?_, ?_⟩
  · obtain ⟨b', e', h⟩ := runLog_spec (.append t fl) b hcap hlen (fun _ => hw) (by intro _ _ _ h; cases h)
    exact ⟨b', by unfold appendPtrdiff; rw [e]; exact e', h.exact hw⟩
  · obtain ⟨b', e', h⟩ := runLog_spec (.minSize t k fl) b hcap hlen (fun _ => hw) (by intro s _ _ h; cases h; omega)
    exact ⟨b', by unfold appendPtrdiffMinSize; rw [e]; exact e', h.exact hw⟩

/-- The decimal representation is unique, so C44 determines what is written. -/
theorem C44_representation_unique (s t : Str) (n : Nat) (hs : IsDecimal s n) (ht : IsDecimal t n) : s = t := by
  suffices H : ∀ (k : Nat) (s t : Str) (n : Nat), s.length ≤ k → IsDecimal s n → IsDecimal t n → s = t from
    H s.length s t n (Nat.le_refl _) hs ht
  intro k
  induction k with
  | zero => intro s t n hk hs _; exact absurd (List.length_eq_zero_iff.1 (by omega)) hs.1
  | succ k ih =>
    intro s t n hk hs ht
    obtain ⟨s', a, rfl⟩ : ∃ s' a, s = s' ++ [a] := ⟨s.dropLast, s.getLast hs.1, (List.dropLast_append_getLast hs.1).symm⟩
    obtain ⟨t', c, rfl⟩ : ∃ t' c, t = t' ++ [c] := ⟨t.dropLast, t.getLast ht.1, (List.dropLast_append_getLast ht.1).symm⟩
    have va := hs.2.1 a (by simp)
    have vc := ht.2.1 c (by simp)
    have e1 := hs.2.2.1
    have e2 := ht.2.2.1
    rw [decValue_append] at e1 e2
    have hac : a = c := UInt8.toNat_inj.1 (by omega)
    have hv : decValue s' = decValue t' := by omega
    have hpos : ∀ (l : Str) (x : UInt8) (m : Nat), l ≠ [] → IsDecimal (l ++ [x]) m →
        IsDecimal l (decValue l) ∧ decValue l ≠ 0 := by
      intro l x m hl h
      have hhead : l.head? ≠ some 48 := by
        intro hh
        cases l with
        | nil => exact hl rfl
        | cons y l =>
          have := h.2.2.2 (by simpa using hh)
          simp at this
      refine ⟨⟨hl, fun z hz => h.2.1 z (List.mem_append_left _ hz), rfl, fun hh => absurd hh hhead⟩, ?_⟩
      cases l with
      | nil => exact absurd rfl hl
      | cons y l =>
        have hy := h.2.1 y (by simp)
        have hy0 : y.toNat ≠ 48 := by
          intro hc; apply hhead; simp; exact UInt8.toNat_inj.1 hc
        have hmono : ∀ (l : Str) (acc : Nat), acc ≤ List.foldl (fun acc c => 10 * acc + (c.toNat - 48)) acc l := by
          intro l
          induction l with
          | nil => intro acc; exact Nat.le_refl _
          | cons z l ih => intro acc; rw [List.foldl_cons]; exact Nat.le_trans (by omega) (ih _)
        have := hmono l (10 * 0 + (y.toNat - 48))
        show List.foldl _ (10 * 0 + (y.toNat - 48)) l ≠ 0
        omega
    subst hac
    by_cases hs0 : s' = []
    · by_cases ht0 : t' = []
      · rw [hs0, ht0]
      · have := (hpos t' _ n ht0 ht).2
        rw [← hv, hs0] at this
        exact absurd rfl this
    · by_cases ht0 : t' = []
      · have := (hpos s' _ n hs0 hs).2
        rw [hv, ht0] at this
        exact absurd rfl this
      · have h1 := (hpos s' _ n hs0 hs).1
        have h2 := (hpos t' _ n ht0 ht).1
        rw [← hv] at h2
        rw [ih s' t' _ (by simp at hk; omega) h1 h2]

/-- **C57** (violated) The last hexadecimal digit of a pointer is not written: different pointers print alike. -/
theorem C57_violated : ptrText 0x7ffe10 = b!"0x00000000007ffe1" ∧ ptrText 0x7ffe11 = ptrText 0x7ffe10 :=
  ⟨by decide +kernel, by decide +kernel⟩

/-- **C57** (what holds) `0x` and fifteen hexadecimal digits are written: those of the pointer's value divided by 16. -/
theorem C57_prefix_partial (u : UInt64) : ∃ ds, ptrText u = b!"0x" ++ ds ∧ ds.length = 15 ∧ (∀ c ∈ ds, IsHex c) ∧
    hexValue ds = u.toNat / 16 := by
  have hlen : (b!"0x" ++ ((List.range 16).reverse.map (fun i => hexDigit ((u.toNat / 2 ^ (4 * i)) % 16)))).length = 18 := by
    simp
  have hsplit : ((List.range 16).reverse.map (fun i => hexDigit (u.toNat / 2 ^ (4 * i) % 16)))
      = ((List.range 15).reverse.map (fun i => hexDigit (u.toNat / 16 / 2 ^ (4 * i) % 16))) ++ [hexDigit (u.toNat % 16)] := by
    rw [List.range_succ_eq_map]
    simp only [List.reverse_cons, List.map_append, List.map_cons, List.map_nil, ← List.map_reverse, List.map_map]
    congr 1
    · apply List.map_congr_left
      intro i _
      simp only [Function.comp_apply]
      congr 2
      rw [Nat.div_div_eq_div_mul, Nat.succ_eq_add_one, Nat.mul_add, Nat.pow_add, Nat.mul_comm]
    · simp
  refine ⟨(List.range 15).reverse.map (fun i => hexDigit (u.toNat / 16 / 2 ^ (4 * i) % 16)), ?_, by simp, ?_, ?_⟩
  · unfold ptrText
    dsimp only
    rw [hlen, hsplit, ← List.append_assoc]
    exact List.take_left' (by simp)
  · intro c hc
    obtain ⟨i, _, rfl⟩ := List.mem_map.1 hc
    exact (hexDigit_spec (Nat.mod_lt _ (by omega))).1
  · rw [hexDigits_value]
    have := u.toNat_lt
    rw [Nat.mod_eq_of_lt]
    omega

/-- **C61** (violated) A negative `int` is written as a huge positive number. -/
theorem C61_violated : ∃ b', appendInt (-1) ⟨false, false⟩ ⟨64, [], [], []⟩ = .ok b' ∧
    b'.data = b!"18446744073709551615" :=
  ⟨_, rfl, by decide +kernel⟩

/-- **C61** (what holds) Non-negative `int` values are written in decimal. -/
theorem C61_nonnegative_partial (v : Int) (h0 : 0 ≤ v) (h1 : v < 2 ^ 31) (fl : LFlags) (b : WBuf)
    (hcap : 0 < b.cap) (hlen : b.data.length ≤ b.cap) (hw : NoErrors b.sched) :
    ∃ t b', IsDecimalInt t v ∧ appendInt v fl b = .ok b' ∧
      b'.sink ++ b'.data = b.sink ++ b.data ++ (t ++ lineEnd fl) := by
  obtain ⟨t, ht, ⟨b', e, h⟩, _⟩ := C44_unsigned (UInt64.ofNat (v % 2 ^ 64).toNat) 0 fl b hcap hlen hw
  refine ⟨t, b', Or.inl ⟨h0, ?_⟩, e, h⟩
  have : (UInt64.ofNat (v % 2 ^ 64).toNat).toNat = v.toNat := by
    rw [UInt64.toNat_ofNat']; omega
  rwa [this] at ht

/-- **C62** The digits written behind the decimal point of a `double` are always six, and they are those of the
millionths. -/
theorem C62_six_decimals (q : UInt64) (hq : q.toNat < 10 ^ 6) : ∃ t, fractionText q = .ok t ∧ t.length = 6 ∧
    (∀ c ∈ t, 48 ≤ c.toNat ∧ c.toNat ≤ 57) ∧ decValue t = q.toNat := by
  obtain ⟨t, e, ⟨h1, h2, h3, h4⟩, _, h6⟩ := uint64Text_spec q
  -- the number of digits
  have hup : ∀ (s : Str), (∀ c ∈ s, 48 ≤ c.toNat ∧ c.toNat ≤ 57) → decValue s < 10 ^ s.length := by
    intro s
    induction s using List.reverseRecOn with
    | nil => intro _; simp [decValue]
    | append_singleton s c ih =>
      intro h
      rw [decValue_append, List.length_append, List.length_singleton, Nat.pow_succ]
      have := ih (fun x hx => h x (List.mem_append_left _ hx))
      have := h c (by simp)
      omega
  have hzeros : ∀ (n : Nat) (s : Str), decValue (List.replicate n 48 ++ s) = decValue s := by
    intro n s
    induction n with
    | zero => rfl
    | succ n ih => rw [List.replicate_succ]; exact ih
  have hlt := hup t h2
  rw [h3] at hlt
  have hpos : 0 < t.length := List.length_pos_iff.2 h1
  have hcount : ([100000, 10000, 1000, 100, 10].filter (fun i => decide (i > q.toNat))).length + t.length = 6 := by
    by_cases hq0 : q.toNat = 0
    · have hl : t = [48] := by
        by_contra hne
        cases t with
        | nil => exact h1 rfl
        | cons a l =>
          have ha := h2 a (by simp)
          have hmono : ∀ (l : Str) (acc : Nat), acc ≤ List.foldl (fun acc c => 10 * acc + (c.toNat - 48)) acc l := by
            intro l
            induction l with
            | nil => intro acc; exact Nat.le_refl _
            | cons z l ih => intro acc; rw [List.foldl_cons]; exact Nat.le_trans (by omega) (ih _)
          have := hmono l (10 * 0 + (a.toNat - 48))
          have h3 : List.foldl (fun acc c => 10 * acc + (c.toNat - 48)) (10 * 0 + (a.toNat - 48)) l = q.toNat := h3
          have : a.toNat = 48 := by omega
          exact hne (h4 (by simp; exact UInt8.toNat_inj.1 this))
      rw [hq0, hl]; rfl
    · have hlo := h6 hq0
      generalize q.toNat = n at *
      have hl6 : t.length ≤ 6 := by
        by_contra hc
        have : 10 ^ 6 ≤ 10 ^ (t.length - 1) := Nat.pow_le_pow_right (by omega) (by omega)
        omega
      generalize t.length = L at *
      have hcases : L = 1 ∨ L = 2 ∨ L = 3 ∨ L = 4 ∨ L = 5 ∨ L = 6 := by omega
      rcases hcases with rfl | rfl | rfl | rfl | rfl | rfl <;>
        simp only [List.filter_cons, List.filter_nil] <;> norm_num at hlt hlo <;>
        (repeat (first | rw [if_pos (by simp; omega)] | rw [if_neg (by simp; omega)])) <;> simp
  refine ⟨_, by unfold fractionText; rw [e]; rfl, by simpa using hcount, ?_, ?_⟩
  · intro c hc
    rcases List.mem_append.1 hc with hc | hc
    · rw [(List.mem_replicate.1 hc).2]; decide
    · exact h2 c hc
  · rw [hzeros, h3]

end Flo
