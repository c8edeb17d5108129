import Verif.Proofs.Status
import Verif.Spec.LogReturn
/-!
# Output and return values of the append functions
-/
namespace Flo
open Spec

/-- `f` outputs `s` and returns `r`. -/
def Gives (f : WBuf → Out (Nat × WBuf)) (s : Str) (r : Nat) : Prop :=
  ∃ g, Prints g s ∧ ∀ b, f b = (g b >>= fun b => .ok (r, b))

theorem Gives.congr {f f' : WBuf → Out (Nat × WBuf)} {s : Str} {r : Nat} (h : Gives f s r) (e : ∀ b, f' b = f b) : Gives f' s r := by
  rw [show f' = f from funext e]; exact h

theorem Gives.text {f : WBuf → Out (Nat × WBuf)} {s s' : Str} {r r' : Nat} (h : Gives f s r) (e : s' = s) (e' : r' = r) : Gives f s' r' := by
  rw [e, e']; exact h

theorem Gives.bind {f g : WBuf → Out (Nat × WBuf)} {s t : Str} {r q : Nat} (hf : Gives f s r) (hg : Gives g t q) :
    Gives (fun b => f b >>= fun x => g x.2) (s ++ t) q := by
  obtain ⟨f', hf', e⟩ := hf
  obtain ⟨g', hg', e'⟩ := hg
  refine ⟨_, hf'.bind hg', fun b => ?_⟩
  simp only [e, e', bind_assoc, Out.bind_ok]

theorem Prints.append (s : Str) (fl : LFlags) : Prints (fun b => appendToBuffer s fl b) (s ++ lineEnd fl) :=
  Prints.one (op := .append s fl) (by rintro _ _ _ ⟨⟩)

theorem gives_append {s : Str} (h : s.length < 2 ^ 32) (fl : LFlags) :
    Gives (fun b => appendToBufferR s fl b) (s ++ lineEnd fl) s.length := by
  refine ⟨_, Prints.append s fl, fun b => ?_⟩
  unfold appendToBufferR
  rw [Nat.mod_eq_of_lt h]

theorem gives_repeated (ch : UInt8) (n : Nat) (fl : LFlags) :
    Gives (fun b => appendRepeatedR ch n fl b) (List.replicate n ch ++ lineEnd fl) 1 :=
  ⟨_, Prints.one (op := .repeated ch n fl) (by rintro _ _ _ ⟨⟩), fun _ => rfl⟩

theorem gives_pad (s : Str) (k : Nat) (fl : LFlags) {f : WBuf → Out (Nat × WBuf)} (h : Gives f s s.length) :
    Gives (fun b => f b >>= fun r => padR k fl r) (cell k s ++ lineEnd fl) (padded s.length k) := by
  obtain ⟨g, hg, e⟩ := h
  unfold padded cell pad
  by_cases hk : k ≤ s.length
  · refine ⟨_, Prints.text (hg.bind (Prints.append [] fl)) ?_, fun b => ?_⟩
    · rw [show k - s.length = 0 by omega]; simp
    · simp only [e, bind_assoc, Out.bind_ok, padR, ge_iff_le, hk, if_true]
  · obtain ⟨g', hg', e'⟩ := gives_repeated cSp (k - s.length) fl
    refine ⟨_, Prints.text (hg.bind hg') ?_, fun b => ?_⟩
    · rw [List.append_assoc]
    · simp only [e, bind_assoc, Out.bind_ok, padR, ge_iff_le, hk, if_false, e']

theorem lineEnd_none : lineEnd ⟨false, false⟩ = [] := rfl

theorem dec_length {n : Nat} (h : n < 2 ^ 64) : (dec n).length < 2 ^ 32 := (dec_isDecimal n).2.2 h

theorem uint64_text (n : UInt64) : uint64Text n = .ok (dec n.toNat) := by
  have := uint64_dec (n := n.toNat) n.toNat_lt
  simpa using this

theorem ptrdiff_text {v : Int} (h1 : -2 ^ 63 ≤ v) (h2 : v < 2 ^ 63) : ptrdiffText v = .ok (decInt v) := by
  obtain ⟨t, e, ht, _⟩ := ptrdiffText_spec v h1 h2
  rw [e]
  congr 1
  unfold decInt
  rcases ht with ⟨h0, ht⟩ | ⟨h0, u, rfl, ht⟩
  · rw [if_neg (by omega)]
    exact C44_representation_unique _ _ _ ht (dec_isDecimal _).1
  · rw [if_pos h0, C44_representation_unique _ _ _ ht (dec_isDecimal _).1]
    rfl

theorem decInt_length {v : Int} (h1 : -2 ^ 63 ≤ v) (h2 : v < 2 ^ 63) : (decInt v).length < 2 ^ 32 := by
  have hb : ∀ n : Nat, n ≤ 2 ^ 63 → (dec n).length ≤ 64 := by
    intro n hn
    obtain ⟨t, e, ht, hl⟩ := uint64Text_spec (UInt64.ofNat n)
    have : (UInt64.ofNat n).toNat = n := by simp; omega
    rw [this] at ht
    rw [C44_representation_unique _ _ _ (dec_isDecimal n).1 ht]
    omega
  unfold decInt
  split
  · have := hb (-v).toNat (by omega)
    simp; omega
  · have := hb v.toNat (by omega)
    omega

theorem hexDigit_eq (n : Nat) : hexDigit n = if n < 10 then UInt8.ofNat (48 + n) else UInt8.ofNat (87 + n) := rfl

theorem ptr_text (u : UInt64) : ptrText u = b!"0x" ++ hexDigits 15 (u.toNat / 16) := by
  have hr : (List.range 16).reverse = [15, 14, 13, 12, 11, 10, 9, 8, 7, 6, 5, 4, 3, 2, 1, 0] := by decide
  unfold ptrText
  rw [hr]
  simp only [List.map_cons, List.map_nil, hexDigits, ← hexDigit_eq, Nat.div_div_eq_div_mul, List.nil_append, List.cons_append]
  simp

theorem hexDigits_length (k n : Nat) : (hexDigits k n).length = k := by
  induction k generalizing n with
  | zero => rfl
  | succ k ih => simp [hexDigits, ih]

theorem zeroCounter_eq {f : UInt64} (h : f.toNat < 10 ^ 6) : zeroCounter f = zeros f := by
  unfold zeroCounter zeros
  generalize f.toNat = n at *
  have d1 : ∀ m, m < 10 → (dec m).length = 1 := by intro m hm; rw [dec, if_pos hm]; rfl
  have ds : ∀ m, 10 ≤ m → (dec m).length = (dec (m / 10)).length + 1 := by
    intro m hm; rw [dec, if_neg (by omega)]; simp
  by_cases h1 : n < 10
  · rw [d1 n h1]; simp [List.filter_cons]; repeat' split
    all_goals (first | rfl | omega | (simp; omega))
  rw [ds n (by omega)]
  by_cases h2 : n < 100
  · rw [d1 _ (by omega)]; simp [List.filter_cons]; repeat' split
    all_goals (first | rfl | omega | (simp; omega))
  rw [ds (n / 10) (by omega)]
  by_cases h3 : n < 1000
  · rw [d1 _ (by omega)]; simp [List.filter_cons]; repeat' split
    all_goals (first | rfl | omega | (simp; omega))
  rw [ds (n / 10 / 10) (by omega)]
  by_cases h4 : n < 10000
  · rw [d1 _ (by omega)]; simp [List.filter_cons]; repeat' split
    all_goals (first | rfl | omega | (simp; omega))
  rw [ds (n / 10 / 10 / 10) (by omega)]
  by_cases h5 : n < 100000
  · rw [d1 _ (by omega)]; simp [List.filter_cons]; repeat' split
    all_goals (first | rfl | omega | (simp; omega))
  rw [ds (n / 10 / 10 / 10 / 10) (by omega), d1 _ (by omega)]
  simp [List.filter_cons]; repeat' split
  all_goals (first | rfl | omega | (simp; omega))

theorem runCall_gives (c : LogCall) (h : c.Fits) : Gives (fun b => runCall c b) (c.text ++ c.ending) c.returned := by
  cases c with
  | string s fl => exact gives_append h fl
  | cstr p fl =>
    cases p with
    | none => exact ⟨_, Prints.nil, fun _ => rfl⟩
    | some m =>
      obtain ⟨h0, hl⟩ := h
      have := gives_append (s := m.takeWhile (· ≠ 0)) (Nat.lt_of_le_of_lt (List.takeWhile_sublist _).length_le hl) fl
      refine this.congr (fun b => ?_)
      show appendCStrR (some m) fl b = _
      unfold appendCStrR
      simp only [h0, if_true]
  | bool v fl => exact gives_append (s := boolText v) (by cases v <;> decide) fl
  | char c fl => exact gives_append (s := [c]) (by simp) fl
  | ptr u fl =>
    have := gives_append (s := b!"0x" ++ hexDigits 15 (u.toNat / 16)) (by simp [hexDigits_length]) fl
    refine this.congr (fun b => ?_)
    show appendPtrR u fl b = _
    unfold appendPtrR
    rw [ptr_text]
  | uint64 n fl =>
    refine (gives_append (dec_length n.toNat_lt) fl).congr (fun b => ?_)
    show appendUint64R n fl b = _
    unfold appendUint64R
    rw [uint64_text]; rfl
  | ptrdiff v fl =>
    refine (gives_append (decInt_length h.1 h.2) fl).congr (fun b => ?_)
    show appendPtrdiffR v fl b = _
    unfold appendPtrdiffR
    rw [ptrdiff_text h.1 h.2]; rfl
  | repeated ch n fl => exact gives_repeated ch n fl
  | stringMin s k fl =>
    have := gives_append (s := s) h ⟨false, false⟩
    rw [lineEnd_none, List.append_nil] at this
    exact gives_pad s k.toNat fl this
  | uint64Min n k fl =>
    have := gives_append (dec_length n.toNat_lt) ⟨false, false⟩
    rw [lineEnd_none, List.append_nil] at this
    refine (gives_pad (dec n.toNat) k.toNat fl this).congr (fun b => ?_)
    show appendUint64MinSizeR n k.toNat fl b = _
    unfold appendUint64MinSizeR appendUint64R
    rw [uint64_text]; rfl
  | ptrdiffMin v k fl =>
    have := gives_append (decInt_length h.1 h.2) ⟨false, false⟩
    rw [lineEnd_none, List.append_nil] at this
    refine (gives_pad (decInt v) k.toNat fl this).congr (fun b => ?_)
    show appendPtrdiffMinSizeR v k.toNat fl b = _
    unfold appendPtrdiffMinSizeR appendPtrdiffR
    rw [ptrdiff_text h.1 h.2]; rfl
  | color tty c =>
    cases tty with
    | false => exact gives_append (s := []) (by decide) ⟨false, false⟩
    | true => cases c <;> exact gives_append (by decide) ⟨false, false⟩
  | colorReset tty =>
    cases tty with
    | false => exact gives_append (s := []) (by decide) ⟨false, false⟩
    | true => exact gives_append (by decide) ⟨false, false⟩
  | double p fl =>
    obtain ⟨neg, parts⟩ := p
    have sign : Gives (fun b => (if neg then appendCharR cDash ⟨false, false⟩ b else .ok (0, b))) (if neg then b!"-" else []) (if neg then 1 else 0) := by
      cases neg with
      | true =>
        have := gives_append (s := [cDash]) (by decide) ⟨false, false⟩
        exact this
      | false => exact ⟨_, Prints.nil, fun _ => rfl⟩
    obtain ⟨g, hg, e⟩ := sign
    cases parts with
    | none =>
      obtain ⟨g', hg', e'⟩ := gives_append (s := b!"inf") (by decide) fl
      refine ⟨_, Prints.text (hg.bind hg') ?_, fun b => ?_⟩
      · simp only [LogCall.text, LogCall.ending, doubleText, List.append_assoc]
      · show appendDoubleR _ fl b = _
        have e := e b
        dsimp only at e e'
        unfold appendDoubleR
        dsimp only
        rw [e]
        simp only [bind_assoc, Out.bind_ok, e']
        cases neg <;> rfl
    | some q =>
      obtain ⟨i, f⟩ := q
      have u64 : ∀ (n : UInt64) (fl : LFlags) (b : WBuf), appendUint64R n fl b = appendToBufferR (dec n.toNat) fl b := by
        intro n fl b; unfold appendUint64R; rw [uint64_text]; rfl
      obtain ⟨g1, h1, e1⟩ := gives_append (dec_length i.toNat_lt) ⟨false, false⟩
      obtain ⟨g2, h2, e2⟩ := gives_append (s := [46]) (by decide) ⟨false, false⟩
      obtain ⟨g3, h3, e3⟩ := gives_repeated 48 (zeroCounter f) ⟨false, false⟩
      obtain ⟨g4, h4, e4⟩ := gives_append (dec_length f.toNat_lt) fl
      refine ⟨_, Prints.text (hg.bind (h1.bind (h2.bind (h3.bind h4)))) ?_, fun b => ?_⟩
      · simp only [LogCall.text, LogCall.ending, doubleText, lineEnd_none, zeroCounter_eq h, List.append_nil, List.append_assoc]
      · show appendDoubleR _ fl b = _
        have e := e b
        dsimp only at e e1 e2 e3 e4
        unfold appendDoubleR
        dsimp only
        rw [e]
        simp only [bind_assoc, Out.bind_ok, u64, e1, appendCharR, e2, e3, e4]
        rfl

/-- A sequence of calls. -/
theorem runCalls_gives : ∀ cs : List LogCall, (∀ c ∈ cs, c.Fits) →
    ∃ g, Prints g (cs.flatMap (fun c => c.text ++ c.ending)) ∧ ∀ b, runCalls cs b = (g b >>= fun b => .ok (cs.map LogCall.returned, b)) := by
  intro cs
  induction cs with
  | nil => intro _; exact ⟨_, Prints.nil, fun _ => rfl⟩
  | cons c cs ih =>
    intro h
    obtain ⟨g, hg, e⟩ := ih (fun c hc => h c (List.mem_cons_of_mem _ hc))
    obtain ⟨g', hg', e'⟩ := runCall_gives c (h c List.mem_cons_self)
    dsimp only at e'
    refine ⟨_, Prints.text (hg'.bind hg) (by simp), fun b => ?_⟩
    unfold runCalls
    simp only [e', e, bind_assoc, Out.bind_ok, List.map_cons]

end Flo
