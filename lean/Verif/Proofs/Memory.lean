import Verif.Spec.Memory
import Verif.Proofs.Post
import Mathlib.Tactic.Linarith
import Mathlib.Data.Int.ModEq
import Mathlib.Tactic.Ring
/-!
# Arena allocations and arrays
-/
namespace Flo
open Spec

theorem arenaPadding_eq (beg align : Int) (h : IsAlign align) : arenaPadding beg align = (-beg) % align := by
  obtain ⟨k, hk, rfl⟩ := h
  unfold arenaPadding
  rw [BitVec.toNat_and]
  have h1 : (BitVec.ofInt 64 (2 ^ k) - 1).toNat = 2 ^ k - 1 := by
    have hlt : (2 : Nat) ^ k < 2 ^ 64 := Nat.pow_lt_pow_right (by omega) (by omega)
    have hpos : 0 < (2 : Nat) ^ k := Nat.pow_pos (by omega)
    have he : BitVec.ofInt 64 (2 ^ k) = BitVec.ofNat 64 (2 ^ k) := by
      have : ((2 : Int) ^ k) = ((2 ^ k : Nat) : Int) := by push_cast; rfl
      rw [this, BitVec.ofInt_natCast]
    rw [he, BitVec.toNat_sub]
    rw [BitVec.toNat_ofNat, Nat.mod_eq_of_lt hlt]
    have h1' : BitVec.toNat (1 : BitVec 64) = 1 := rfl
    rw [h1']
    have : 2 ^ 64 - 1 + 2 ^ k = (2 ^ k - 1) + 2 ^ 64 := by omega
    rw [this, Nat.add_mod_right, Nat.mod_eq_of_lt (by omega)]
  rw [h1, Nat.and_two_pow_sub_one_eq_mod]
  push_cast
  have h2 : ((-(BitVec.ofInt 64 beg)).toNat : Int) = (-beg) % (2 ^ 64) := by
    rw [← BitVec.ofInt_neg, BitVec.toNat_ofInt]
    rw [Int.toNat_of_nonneg (Int.emod_nonneg _ (by norm_num))]
    norm_num
  rw [h2, Int.emod_emod_of_dvd]
  exact pow_dvd_pow 2 (by omega)

theorem Spec.IsAlign.pos {n : Int} (h : IsAlign n) : 0 < n := by
  obtain ⟨k, _, rfl⟩ := h
  positivity

theorem isAlign_one : IsAlign 1 := ⟨0, by omega, rfl⟩

/-- What a successful allocation does. -/
structure Alloced (size align count : Int) (zero : Bool) (a : Arena) (p : Int) (a' : Arena) : Prop where
  above : a.beg ≤ p
  close : p < a.beg + align
  aligned : p % align = 0
  beg : a'.beg = p + size * count
  stop : a'.stop = a.stop
  fits : 0 < count → p + size * count ≤ a.stop
  below : ∀ x, x < p → a'.mem x = a.mem x
  outside : ∀ x, a'.beg ≤ x → a'.mem x = a.mem x
  zeroed : zero = true → ∀ x, p ≤ x → x < p + size * count → a'.mem x = 0
  keeps : zero = false → a'.mem = a.mem

theorem padded_aligned (beg align : Int) : (beg + (-beg) % align) % align = 0 := by
  have := Int.emod_emod_of_dvd (-beg) (dvd_refl align)
  rw [Int.add_emod, this, ← Int.add_emod]; simp

theorem arenaAlloc_cases {size align count : Int} {zero nof : Bool} {a : Arena} (hs : 0 < size) (hal : IsAlign align)
    (hc : 0 ≤ count) :
    (∃ p a', arenaAlloc size align count zero nof a = .ok (some p, a') ∧ Alloced size align count zero a p a') ∨
    (a.stop < a.beg + (-a.beg) % align + size * count ∧
      arenaAlloc size align count zero nof a = if nof then .ok (none, a) else .longjmp) := by
  have hp := arenaPadding_eq a.beg align hal
  have hpos := hal.pos
  have h0 := Int.emod_nonneg (-a.beg) (ne_of_gt hpos)
  have h1 := Int.emod_lt_of_pos (-a.beg) hpos
  unfold arenaAlloc
  rw [hp]
  dsimp only
  by_cases hf : count > (a.stop - a.beg - (-a.beg) % align).tdiv size
  · refine Or.inr ⟨?_, by rw [if_pos hf]⟩
    by_contra hcon
    push_neg at hcon
    have hnn : 0 ≤ a.stop - a.beg - (-a.beg) % align := by
      have := mul_nonneg hs.le hc
      linarith
    rw [Int.tdiv_eq_ediv_of_nonneg hnn] at hf
    have := (Int.ediv_lt_iff_lt_mul hs).1 hf
    nlinarith
  · refine Or.inl ⟨_, _, by rw [if_neg hf], ?_⟩
    have hfit : 0 < count → a.beg + (-a.beg) % align + size * count ≤ a.stop := by
      intro hc
      have hf := not_lt.1 hf
      by_cases hnn : 0 ≤ a.stop - a.beg - (-a.beg) % align
      · rw [Int.tdiv_eq_ediv_of_nonneg hnn] at hf
        have := (Int.le_ediv_iff_mul_le hs).1 hf
        nlinarith
      · have : (a.stop - a.beg - (-a.beg) % align).tdiv size ≤ 0 :=
          (by
            have h2 := Int.tdiv_nonneg (a := -(a.stop - a.beg - (-a.beg) % align)) (by omega) hs.le
            rw [Int.neg_tdiv] at h2
            omega)
        omega
    have hm := mul_nonneg hs.le hc
    constructor <;> try dsimp only
    · omega
    · omega
    · exact padded_aligned _ _
    · ring
    · exact hfit
    · intro x hx
      cases zero
      · rfl
      · simp only [if_true, memZero]; rw [if_neg (by omega)]
    · intro x hx
      cases zero
      · rfl
      · simp only [if_true, memZero]; rw [if_neg (by omega)]
    · rintro rfl x h h'
      simp only [if_true, memZero]; rw [if_pos ⟨h, h'⟩]
    · rintro rfl; rfl

theorem alloc_post {size align count : Int} {zero : Bool} {a : Arena} (hs : 0 < size) (hal : IsAlign align)
    (hc : 0 ≤ count) :
    arenaAlloc size align count zero false a = .longjmp ∨
    ∃ p a', arenaAlloc size align count zero false a = .ok (some p, a') ∧ Alloced size align count zero a p a' := by
  rcases arenaAlloc_cases (zero := zero) (nof := false) (a := a) hs hal hc with h | ⟨_, h⟩
  · exact Or.inr h
  · exact Or.inl (by simpa using h)

/-- With room for the block and its alignment an allocation does not jump. -/
theorem alloc_noJump {size align count : Int} {zero nof : Bool} {a : Arena} (hs : 0 < size) (hal : IsAlign align)
    (hc : 0 ≤ count) (h : arenaAlloc size align count zero nof a = .longjmp) :
    nof = false ∧ a.stop - a.beg < size * count + align := by
  rcases arenaAlloc_cases (zero := zero) (nof := nof) (a := a) hs hal hc with ⟨p, a', he, _⟩ | ⟨hlt, he⟩
  · rw [he] at h; cases h
  · have := Int.emod_lt_of_pos (-a.beg) hal.pos
    refine ⟨?_, by omega⟩
    cases nof
    · rfl
    · rw [he] at h; simp at h

/-! ## Reading arrays -/

theorem bytesAt_congr {m m' : Int → UInt8} {p : Int} {n : Nat} (h : ∀ x, p ≤ x → x < p + n → m x = m' x) :
    bytesAt m p n = bytesAt m' p n := by
  unfold bytesAt
  refine List.map_congr_left fun i hi => ?_
  have := List.mem_range.1 hi
  exact h _ (by omega) (by omega)

theorem readArr_some {m : Int → UInt8} {k : Kind} {s : Arr} {b : Int} (hb : s.buf = some b) :
    readArr m k s = (List.range s.len.toNat).map (fun (t : Nat) => bytesAt m (b + k.size * (t : Int)) k.size.toNat) := by
  unfold readArr; rw [hb]

theorem length_readArr {m : Int → UInt8} {k : Kind} {s : Arr} {b : Int} (hb : s.buf = some b) :
    (readArr m k s).length = s.len.toNat := by
  rw [readArr_some hb]; simp

theorem mul_slot {z t c : Int} (hz : 0 < z) (h : t + 1 ≤ c) : z * t + z ≤ z * c := by nlinarith

theorem bytesAt_length (m : Int → UInt8) (p : Int) (n : Nat) : (bytesAt m p n).length = n := by
  unfold bytesAt; simp

/-- Moving an array: same bytes at another place. -/
theorem readArr_move {m m' : Int → UInt8} {k : Kind} {s s' : Arr} {b b' : Int} (hz : 0 < k.size)
    (hb : s.buf = some b) (hb' : s'.buf = some b') (hl : s'.len = s.len) (hl0 : 0 ≤ s.len)
    (h : ∀ x, 0 ≤ x → x < k.size * s.len → m' (b' + x) = m (b + x)) : readArr m' k s' = readArr m k s := by
  rw [readArr_some hb, readArr_some hb', hl]
  refine List.map_congr_left fun t ht => ?_
  have ht := List.mem_range.1 ht
  unfold bytesAt
  refine List.map_congr_left fun i hi => ?_
  have hi := List.mem_range.1 hi
  have h1 := mul_slot (t := t) (c := s.len) hz (by omega)
  have h2 : 0 ≤ k.size * (t : Int) := mul_nonneg hz.le (by omega)
  have := h (k.size * t + i) (by omega) (by omega)
  rw [← add_assoc, ← add_assoc] at this
  exact this

theorem memWrite_read {m : Int → UInt8} {p : Int} {e : List UInt8} : bytesAt (memWrite p e m) p e.length = e := by
  unfold bytesAt memWrite
  refine List.ext_getElem (by simp) fun i h1 h2 => ?_
  simp only [List.getElem_map, List.getElem_range]
  rw [if_pos (by omega)]
  have : (p + (i : Int) - p).toNat = i := by omega
  rw [this, List.getD_eq_getElem?_getD, List.getElem?_eq_getElem h2]; rfl

theorem memWrite_other {m : Int → UInt8} {p q : Int} {e : List UInt8} {n : Nat} (h : p + e.length ≤ q ∨ q + n ≤ p) :
    bytesAt (memWrite p e m) q n = bytesAt m q n := by
  refine bytesAt_congr fun x h1 h2 => ?_
  unfold memWrite
  rw [if_neg (by omega)]

theorem readArr_set {m : Int → UInt8} {k : Kind} {s : Arr} {b : Int} {t : Nat} {e : List UInt8} (hz : 0 < k.size)
    (hb : s.buf = some b) (he : (e.length : Int) = k.size) :
    readArr (memWrite (b + k.size * t) e m) k s = (readArr m k s).set t e := by
  rw [readArr_some hb, readArr_some hb]
  refine List.ext_getElem (by simp) fun i h1 h2 => ?_
  simp only [List.getElem_map, List.getElem_range, List.getElem_set]
  by_cases hit : t = i
  · subst hit
    rw [if_pos rfl]
    have : k.size.toNat = e.length := by omega
    rw [this]; exact memWrite_read
  · rw [if_neg hit]
    refine memWrite_other ?_
    rcases lt_or_gt_of_ne hit with h | h
    · have := mul_slot (t := t) (c := i) hz (by omega); omega
    · have := mul_slot (t := i) (c := t) hz (by omega); omega

theorem readArr_push {m : Int → UInt8} {k : Kind} {s : Arr} {b : Int} {e : List UInt8} (hz : 0 < k.size)
    (hb : s.buf = some b) (he : (e.length : Int) = k.size) (hl : 0 ≤ s.len) :
    readArr (memWrite (b + k.size * s.len) e m) k { s with len := s.len + 1 } = readArr m k s ++ [e] := by
  have hl1 : (s.len + 1).toNat = s.len.toNat + 1 := by omega
  rw [readArr_some (s := { s with len := s.len + 1 }) (by exact hb), readArr_some hb]
  dsimp only
  rw [hl1, List.range_succ, List.map_append]
  congr 1
  · refine List.map_congr_left fun t ht => ?_
    have ht := List.mem_range.1 ht
    refine memWrite_other (Or.inr ?_)
    have := mul_slot (t := t) (c := s.len) hz (by omega); omega
  · simp only [List.map_cons, List.map_nil]
    have : ((s.len.toNat : Nat) : Int) = s.len := by omega
    rw [this]
    have : k.size.toNat = e.length := by omega
    rw [this, memWrite_read]

theorem readArr_append {m : Int → UInt8} {s : Arr} {b : Int} {d : List UInt8} (hb : s.buf = some b) (hl : 0 ≤ s.len) :
    readArr (memWrite (b + s.len) d m) ⟨1, 1⟩ { s with len := s.len + d.length } =
      readArr m ⟨1, 1⟩ s ++ d.map (fun c => [c]) := by
  rw [readArr_some (s := { s with len := s.len + d.length }) (by exact hb), readArr_some hb]
  dsimp only
  refine List.ext_getElem (by simp; omega) fun i h1 h2 => ?_
  simp only [List.length_map, List.length_range] at h1
  simp only [List.getElem_map, List.getElem_range, one_mul]
  show bytesAt _ _ 1 = _
  by_cases hi : i < s.len.toNat
  · rw [List.getElem_append_left (by simpa using hi)]
    simp only [List.getElem_map, List.getElem_range]
    exact memWrite_other (Or.inr (by omega))
  · rw [List.getElem_append_right (by simpa using hi)]
    simp only [List.getElem_map, List.length_map, List.length_range]
    unfold bytesAt memWrite
    simp only [List.range_one, List.map_cons, List.map_nil]
    rw [if_pos (by omega)]
    congr 1
    have : (b + (i : Int) + ((0 : Nat) : Int) - (b + s.len)).toNat = i - s.len.toNat := by omega
    rw [this, List.getD_eq_getElem?_getD, List.getElem?_eq_getElem (by omega)]; rfl

/-! ## The heap invariant -/

structure ArrOK (lo : Int) (a : Arena) (k : Kind) (s : Arr) : Prop where
  kind : k.OK
  len0 : 0 ≤ s.len
  lenCap : s.len ≤ s.cap
  none : s.buf = none → s.cap = 0
  cap : ∀ b, s.buf = some b → 0 < s.cap
  lo : ∀ b, s.buf = some b → lo ≤ b
  beg : ∀ b, s.buf = some b → b + k.size * s.cap ≤ a.beg
  stop : ∀ b, s.buf = some b → b + k.size * s.cap ≤ a.stop
  aligned : ∀ b, s.buf = some b → b % k.align = 0

def Apart (k : Kind) (s : Arr) (k' : Kind) (s' : Arr) : Prop :=
  ∀ b b', s.buf = some b → s'.buf = some b' → b + k.size * s.cap ≤ b' ∨ b' + k'.size * s'.cap ≤ b

theorem Apart.symm {k k' : Kind} {s s' : Arr} (h : Apart k s k' s') : Apart k' s' k s :=
  fun b b' hb hb' => (h b' b hb' hb).symm

/-- An array changed from `s` to `s'` while the arena changed from `a` to `a'`. -/
structure Upd (lo : Int) (k : Kind) (a : Arena) (s : Arr) (a' : Arena) (s' : Arr) : Prop where
  ok : ArrOK lo a' k s'
  beg : a.beg ≤ a'.beg
  stop : a'.stop = a.stop
  place : ∀ b', s'.buf = some b' → (s.buf = some b' ∧ s'.cap = s.cap) ∨ (s.buf = some b' ∧ b' + k.size * s.cap = a.beg) ∨
    a.beg ≤ b'
  mem : ∀ x, x < a.beg → (∀ b', s'.buf = some b' → x < b' ∨ b' + k.size * s'.cap ≤ x) → a'.mem x = a.mem x

theorem Upd.apart {lo : Int} {k k2 : Kind} {a a' : Arena} {s s' s2 : Arr} (h : Upd lo k a s a' s')
    (h2 : ArrOK lo a k2 s2) (hap : Apart k s k2 s2) : Apart k s' k2 s2 := by
  intro b b2 hb hb2
  rcases h.place b hb with ⟨h1, hc⟩ | ⟨h1, hc⟩ | h1
  · rw [hc]; exact hap b b2 h1 hb2
  · rcases hap b b2 h1 hb2 with h3 | h3
    · have := h2.beg b2 hb2
      have := h2.cap b2 hb2
      have := h2.kind.1
      have : 0 < k2.size * s2.cap := by positivity
      omega
    · exact Or.inr h3
  · exact Or.inr ((h2.beg b2 hb2).trans h1)

theorem Upd.others {lo : Int} {k k2 : Kind} {a a' : Arena} {s s' s2 : Arr} (h : Upd lo k a s a' s')
    (h2 : ArrOK lo a k2 s2) (hap : Apart k s k2 s2) :
    ArrOK lo a' k2 s2 ∧ readArr a'.mem k2 s2 = readArr a.mem k2 s2 := by
  constructor
  · exact ⟨h2.kind, h2.len0, h2.lenCap, h2.none, h2.cap, h2.lo, fun b hb => (h2.beg b hb).trans h.beg,
      fun b hb => h.stop ▸ h2.stop b hb, h2.aligned⟩
  · cases hb2 : s2.buf with
    | none => unfold readArr; rw [hb2]
    | some b2 =>
      refine readArr_move h2.kind.1 hb2 hb2 rfl h2.len0 fun x h0 hx => ?_
      have hap' := h.apart h2 hap
      have hc := h2.beg b2 hb2
      have hle : k2.size * s2.len ≤ k2.size * s2.cap := by
        have := h2.lenCap; have := h2.kind.1; nlinarith
      refine h.mem _ (by omega) fun b' hb' => ?_
      rcases hap' b' b2 hb' hb2 with h3 | h3
      · right; omega
      · left; omega

/-- Making room: the contents stay. -/
structure Resv (lo : Int) (k : Kind) (a : Arena) (s : Arr) (a' : Arena) (s' : Arr) : Prop where
  upd : Upd lo k a s a' s'
  len : s'.len = s.len
  read : readArr a'.mem k s' = readArr a.mem k s

theorem Resv.refl {lo : Int} {k : Kind} {a : Arena} {s : Arr} (h : ArrOK lo a k s) : Resv lo k a s a s :=
  ⟨⟨h, le_refl _, rfl, fun _ hb => Or.inl ⟨hb, rfl⟩, fun _ _ _ => rfl⟩, rfl, rfl⟩

theorem arrGrow_spec {lo : Int} {k : Kind} {zero : Bool} {a : Arena} {s : Arr} (h : ArrOK lo a k s) (hlo : lo ≤ a.beg) :
    arrGrow k.size k.align zero s a = .longjmp ∨
    ∃ s' a', arrGrow k.size k.align zero s a = .ok (s', a') ∧ Resv lo k a s a' s' ∧ (s.len = s.cap → s'.len < s'.cap) ∧
      ∃ b, s'.buf = some b := by
  obtain ⟨hz, hal, hdiv⟩ := h.kind
  unfold arrGrow
  cases hb : s.buf with
  | none =>
    dsimp only
    rcases alloc_post (size := 2 * k.size) (align := k.align) (count := 1) (zero := zero) (a := a) (by omega) hal (by omega)
      with hj | ⟨p, a', he, hA⟩
    · left; rw [hj]; rfl
    · right
      rw [he]
      have hc0 := h.none hb
      have hl0 := h.len0
      have hlc := h.lenCap
      have hfit := hA.fits (by omega)
      have hbeg := hA.beg
      have hab := hA.above
      refine ⟨_, _, rfl, ⟨⟨⟨h.kind, hl0, ?_, ?_, ?_, ?_, ?_, ?_, ?_⟩, ?_, hA.stop, ?_, ?_⟩, rfl, ?_⟩, ?_, p, rfl⟩
      · dsimp only; omega
      · intro hn; simp at hn
      · intro _ _; dsimp only; omega
      · rintro b ⟨⟩; omega
      · rintro b ⟨⟩; dsimp only; omega
      · rintro b ⟨⟩; rw [hA.stop]; dsimp only; omega
      · rintro b ⟨⟩; exact hA.aligned
      · show a.beg ≤ a'.beg; omega
      · rintro b ⟨⟩; right; right; exact hA.above
      · intro x hx _; exact hA.below x (by omega)
      · unfold readArr; rw [hb]; simp [show s.len = 0 by omega]
      · intro _; dsimp only; omega
  | some b =>
    have hc0 := h.cap b hb
    have hl0 := h.len0
    have hlc := h.lenCap
    have hbg := h.beg b hb
    have hlb := h.lo b hb
    have hmul : 0 < k.size * s.cap := by positivity
    have hle : k.size * s.len ≤ k.size * s.cap := by nlinarith
    have hle0 : 0 ≤ k.size * s.len := by positivity
    have h2c : k.size * (s.cap * 2) = 2 * (k.size * s.cap) := by ring
    dsimp only
    by_cases hadj : a.beg = b + k.size * s.cap
    · rw [if_pos hadj]
      rcases alloc_post (size := k.size) (align := 1) (count := s.cap) (zero := zero) (a := a) (by omega) isAlign_one (by omega)
        with hj | ⟨p, a', he, hA⟩
      · left; rw [hj]; rfl
      · right
        rw [he]
        have hfit := hA.fits (by omega)
        have hbeg := hA.beg
        have hab := hA.above
        have hcl := hA.close
        have hpe : p = a.beg := by omega
        refine ⟨_, _, rfl, ⟨⟨⟨h.kind, hl0, ?_, ?_, ?_, ?_, ?_, ?_, ?_⟩, ?_, hA.stop, ?_, ?_⟩, rfl, ?_⟩, ?_, b, rfl⟩
        · dsimp only; omega
        · intro hn; simp at hn
        · intro _ _; dsimp only; omega
        · rintro b' ⟨⟩; exact hlb
        · rintro b' ⟨⟩; dsimp only; omega
        · rintro b' ⟨⟩; rw [hA.stop]; dsimp only; omega
        · rintro b' ⟨⟩; exact h.aligned b hb
        · show a.beg ≤ a'.beg; omega
        · rintro b' ⟨⟩; right; left; exact ⟨hb, hadj.symm⟩
        · intro x hx _; exact hA.below x (by omega)
        · refine readArr_move hz hb rfl rfl hl0 fun x h0 hx => ?_
          exact hA.below _ (by omega)
        · intro _; dsimp only; omega
    · rw [if_neg hadj]
      rcases alloc_post (size := 2 * k.size) (align := k.align) (count := s.cap) (zero := zero) (a := a) (by omega) hal (by omega)
        with hj | ⟨p, a', he, hA⟩
      · left; rw [hj]; rfl
      · right
        rw [he]
        have hfit := hA.fits (by omega)
        have hbeg := hA.beg
        have hab := hA.above
        have h2d : 2 * k.size * s.cap = 2 * (k.size * s.cap) := by ring
        refine ⟨_, _, rfl, ⟨⟨⟨h.kind, hl0, ?_, ?_, ?_, ?_, ?_, ?_, ?_⟩, ?_, hA.stop, ?_, ?_⟩, rfl, ?_⟩, ?_, p, rfl⟩
        · dsimp only; omega
        · intro hn; simp at hn
        · intro _ _; dsimp only; omega
        · rintro b ⟨⟩; omega
        · rintro b ⟨⟩; dsimp only; omega
        · rintro b ⟨⟩; rw [hA.stop]; dsimp only; omega
        · rintro b ⟨⟩; exact hA.aligned
        · show a.beg ≤ a'.beg; omega
        · rintro b ⟨⟩; right; right; exact hA.above
        · intro x hx _
          show memCopy p b (k.size * s.len) a'.mem x = _
          unfold memCopy; rw [if_neg (by omega)]; exact hA.below x (by omega)
        · refine readArr_move hz hb rfl rfl hl0 fun x h0 hx => ?_
          show memCopy p b (k.size * s.len) a'.mem (p + x) = _
          unfold memCopy; rw [if_pos (by omega), hA.below _ (by omega)]
          congr 1; omega
        · intro _; dsimp only; omega

theorem arrReserve_spec {lo : Int} {k : Kind} {zero : Bool} {a : Arena} {s : Arr} (h : ArrOK lo a k s) (hlo : lo ≤ a.beg) :
    arrReserve k.size k.align zero s a = .longjmp ∨
    ∃ s' a', arrReserve k.size k.align zero s a = .ok (s', a') ∧ Resv lo k a s a' s' ∧ s'.len < s'.cap ∧
      ∃ b, s'.buf = some b := by
  unfold arrReserve
  by_cases hc : s.len ≥ s.cap
  · rw [if_pos hc]
    rcases arrGrow_spec (zero := zero) h hlo with h1 | ⟨s', a', he, hr, hl, hb⟩
    · exact Or.inl h1
    · exact Or.inr ⟨s', a', he, hr, hl (le_antisymm h.lenCap hc), hb⟩
  · rw [if_neg hc]
    refine Or.inr ⟨s, a, rfl, Resv.refl h, not_le.1 hc, ?_⟩
    cases hb : s.buf with
    | none => have := h.none hb; have := h.len0; omega
    | some b => exact ⟨b, rfl⟩

theorem rawReserve_spec {lo : Int} {n : Nat} {a : Arena} {s : Arr} (h : ArrOK lo a ⟨1, 1⟩ s) (hlo : lo ≤ a.beg) :
    rawReserve n s a = .longjmp ∨
    ∃ s' a', rawReserve n s a = .ok (s', a') ∧ Resv lo ⟨1, 1⟩ a s a' s' ∧ s'.len + n ≤ s'.cap := by
  unfold rawReserve
  by_cases hc : s.len + n > s.cap
  · rw [if_pos hc]
    dsimp only
    have hl0 := h.len0
    have hlc := h.lenCap
    have hN : 0 ≤ (s.len + (n : Int)) * 2 := by omega
    rcases alloc_post (size := 1) (align := 1) (count := (s.len + (n : Int)) * 2) (zero := false) (a := a) (by omega)
      isAlign_one hN with hj | ⟨p, a', he, hA⟩
    · left
      cases hb : s.buf with
      | none => dsimp only; rw [hj]; rfl
      | some b =>
        dsimp only
        split
        · rw [hj]; rfl
        · rw [hj]; rfl
    · right
      rw [he]
      have hpos : 0 < (s.len + (n : Int)) * 2 ∨ s.len + (n : Int) = 0 := by omega
      have hbeg := hA.beg
      have hab := hA.above
      cases hb : s.buf with
      | none =>
        have hc0 := h.none hb
        have hfit := hA.fits (by omega)
        refine ⟨_, _, rfl, ⟨⟨⟨h.kind, hl0, ?_, ?_, ?_, ?_, ?_, ?_, ?_⟩, ?_, hA.stop, ?_, ?_⟩, rfl, ?_⟩, ?_⟩
        · dsimp only; omega
        · intro hn; simp at hn
        · intro _ _; dsimp only; omega
        · rintro b ⟨⟩; omega
        · rintro b ⟨⟩; dsimp only; omega
        · rintro b ⟨⟩; rw [hA.stop]; dsimp only; omega
        · rintro b ⟨⟩; exact hA.aligned
        · show a.beg ≤ a'.beg; omega
        · rintro b ⟨⟩; right; right; exact hA.above
        · intro x hx _; exact hA.below x (by omega)
        · unfold readArr; rw [hb]; simp [show s.len = 0 by omega]
        · dsimp only; omega
      | some b =>
        have hc0 := h.cap b hb
        have hbg := h.beg b hb
        have hbs := h.stop b hb
        dsimp only at hbg hbs
        have hfit := hA.fits (by omega)
        dsimp only
        rw [if_neg (by omega)]
        refine ⟨_, _, rfl, ⟨⟨⟨h.kind, hl0, ?_, ?_, ?_, ?_, ?_, ?_, ?_⟩, ?_, hA.stop, ?_, ?_⟩, rfl, ?_⟩, ?_⟩
        · dsimp only; omega
        · intro hn; simp at hn
        · intro _ _; dsimp only; omega
        · rintro b ⟨⟩; omega
        · rintro b ⟨⟩; dsimp only; omega
        · rintro b ⟨⟩; rw [hA.stop]; dsimp only; omega
        · rintro b ⟨⟩; exact hA.aligned
        · show a.beg ≤ a'.beg; omega
        · rintro b ⟨⟩; right; right; exact hA.above
        · intro x hx _
          show memCopy p b s.len a'.mem x = _
          unfold memCopy; rw [if_neg (by omega)]; exact hA.below x (by omega)
        · refine readArr_move (by dsimp only; omega) hb rfl rfl hl0 fun x h0 hx => ?_
          dsimp only at hx
          show memCopy p b s.len a'.mem (p + x) = _
          unfold memCopy; rw [if_pos (by omega), hA.below _ (by omega)]
          congr 1; omega
        · dsimp only; omega
  · rw [if_neg hc]
    exact Or.inr ⟨s, a, rfl, Resv.refl h, by omega⟩

/-- Writing inside the array. -/
theorem Upd.write {lo : Int} {k : Kind} {a a1 : Arena} {s s1 : Arr} (h : Upd lo k a s a1 s1) {b p l : Int}
    {d : List UInt8} (hb : s1.buf = some b) (hp : b ≤ p) (hp' : p + d.length ≤ b + k.size * s1.cap) (hl0 : 0 ≤ l)
    (hl : l ≤ s1.cap) : Upd lo k a s { a1 with mem := memWrite p d a1.mem } { s1 with len := l } := by
  refine ⟨⟨h.ok.kind, hl0, hl, h.ok.none, h.ok.cap, h.ok.lo, h.ok.beg, h.ok.stop, h.ok.aligned⟩, h.beg, h.stop, h.place, ?_⟩
  intro x hx hout
  show memWrite p d a1.mem x = _
  have := hout b hb
  dsimp only at this
  unfold memWrite
  rw [if_neg (by omega)]
  exact h.mem x hx hout

theorem arrPush_spec {lo : Int} {k : Kind} {zero : Bool} {a : Arena} {s : Arr} (h : ArrOK lo a k s) (hlo : lo ≤ a.beg) :
    arrPush k.size k.align zero s a = .longjmp ∨
    ∃ b s' a', arrPush k.size k.align zero s a = .ok (b + k.size * s.len, s', a') ∧ s'.buf = some b ∧
      s'.len = s.len + 1 ∧ s'.len ≤ s'.cap ∧
      Resv lo k a s a' { s' with len := s.len } := by
  unfold arrPush
  rcases arrReserve_spec (zero := zero) h hlo with h1 | ⟨s', a', he, hr, hl, b, hb⟩
  · left; rw [h1]; rfl
  · right
    rw [he]
    simp only [Out.bind_ok]
    rw [hb]
    have hle := hr.len
    refine ⟨b, { s' with len := s'.len + 1 }, a', ?_, ?_, ?_, ?_, ?_⟩
    · dsimp only; rw [hle, hb]
    · exact hb
    · dsimp only; rw [hle]
    · dsimp only; omega
    · dsimp only
      have : ({ buf := s'.buf, len := s.len, cap := s'.cap } : Arr) = s' := by rw [← hle]
      rw [this]; exact hr

theorem arrPushElem_spec {lo : Int} {k : Kind} {zero : Bool} {e : List UInt8} {a : Arena} {s : Arr} (h : ArrOK lo a k s)
    (hlo : lo ≤ a.beg) (he : (e.length : Int) = k.size) :
    arrPushElem k.size k.align zero e s a = .longjmp ∨
    ∃ s' a', arrPushElem k.size k.align zero e s a = .ok (s', a') ∧ Upd lo k a s a' s' ∧
      readArr a'.mem k s' = readArr a.mem k s ++ [e] := by
  unfold arrPushElem
  rcases arrPush_spec (zero := zero) h hlo with h1 | ⟨b, s', a', hq, hb, hl, hc, hr⟩
  · left; rw [h1]; rfl
  · right
    rw [hq]
    refine ⟨_, _, rfl, ?_, ?_⟩
    · have hz := h.kind.1
      have hl0 := h.len0
      have hm := mul_slot (t := s.len) (c := s'.cap) hz (by omega)
      have hm0 : 0 ≤ k.size * s.len := by positivity
      have := hr.upd.write (b := b) (p := b + k.size * s.len) (l := s'.len) (d := e) hb (by omega)
        (by dsimp only; omega) (by omega) (by dsimp only; omega)
      exact this
    · rw [← hr.read]
      have := readArr_push (m := a'.mem) (s := { s' with len := s.len }) (e := e) h.kind.1 hb he h.len0
      dsimp only at this ⊢
      rw [← hl] at this
      exact this

theorem rawAdd_spec {lo : Int} {d : List UInt8} {a : Arena} {s : Arr} (h : ArrOK lo a ⟨1, 1⟩ s) (hlo : lo ≤ a.beg) :
    rawAdd d s a = .longjmp ∨
    ∃ s' a', rawAdd d s a = .ok (s', a') ∧ Upd lo ⟨1, 1⟩ a s a' s' ∧
      readArr a'.mem ⟨1, 1⟩ s' = readArr a.mem ⟨1, 1⟩ s ++ d.map (fun c => [c]) := by
  unfold rawAdd
  rcases rawReserve_spec (n := d.length) h hlo with h1 | ⟨s', a', hq, hr, hl⟩
  · left; rw [h1]; rfl
  · right
    rw [hq]
    simp only [Out.bind_ok]
    have hlen := hr.len
    have hl0 := h.len0
    cases hb : s'.buf with
    | none =>
      have := hr.upd.ok.none hb
      have hd : d = [] := List.eq_nil_of_length_eq_zero (by omega)
      dsimp only
      rw [if_pos hd]
      refine ⟨_, _, rfl, hr.upd, ?_⟩
      rw [hr.read, hd]; simp
    | some b =>
      refine ⟨_, _, rfl, ?_, ?_⟩
      · have := hr.upd.write (b := b) (p := b + s'.len) (l := s'.len + d.length) (d := d) hb (by omega)
          (by dsimp only; omega) (by omega) (by omega)
        rw [hb] at this
        exact this
      · rw [← hr.read]
        have := readArr_append (m := a'.mem) (s := s') (d := d) hb (by omega)
        rw [hb] at this
        exact this

structure HInv (a0 : Arena) (h : Heap) (vs : List (List Elem)) : Prop where
  beg : a0.beg ≤ h.arena.beg
  stop : h.arena.stop = a0.stop
  len : vs.length = h.arrs.length
  arr : ∀ (i : Nat) k s, h.arrs[i]? = some (k, s) → ArrOK a0.beg h.arena k s
  val : ∀ (i : Nat) k s, h.arrs[i]? = some (k, s) → vs[i]? = some (readArr h.arena.mem k s)
  apart : ∀ (i j : Nat) k s k' s', i ≠ j → h.arrs[i]? = some (k, s) → h.arrs[j]? = some (k', s') → Apart k s k' s'

theorem HInv.upd {a0 : Arena} {h : Heap} {vs : List (List Elem)} (hI : HInv a0 h vs) {i : Nat} {k : Kind} {s s' : Arr}
    {a' : Arena} {f : List Elem → List Elem} (hi : h.arrs[i]? = some (k, s)) (hU : Upd a0.beg k h.arena s a' s')
    (hv : readArr a'.mem k s' = f (readArr h.arena.mem k s)) :
    HInv a0 ⟨a', h.arrs.set i (k, s')⟩ (vs.modify i f) := by
  have hlt : i < h.arrs.length := (List.getElem?_eq_some_iff.1 hi).1
  have get : ∀ (j : Nat) k2 s2, (h.arrs.set i (k, s'))[j]? = some (k2, s2) →
      (j = i ∧ k2 = k ∧ s2 = s') ∨ (j ≠ i ∧ h.arrs[j]? = some (k2, s2)) := by
    intro j k2 s2 hj
    rw [List.getElem?_set] at hj
    by_cases hji : i = j
    · subst hji
      rw [if_pos rfl, if_pos hlt] at hj
      cases hj; exact Or.inl ⟨rfl, rfl, rfl⟩
    · rw [if_neg hji] at hj
      exact Or.inr ⟨fun e => hji e.symm, hj⟩
  refine ⟨hI.beg.trans hU.beg, hU.stop.trans hI.stop, by simp [hI.len], ?_, ?_, ?_⟩
  · intro j k2 s2 hj
    rcases get j k2 s2 hj with ⟨rfl, rfl, rfl⟩ | ⟨hne, hj⟩
    · exact hU.ok
    · exact (hU.others (hI.arr _ _ _ hj) (hI.apart _ _ _ _ _ _ (Ne.symm hne) hi hj)).1
  · intro j k2 s2 hj
    rw [List.getElem?_modify]
    rcases get j k2 s2 hj with ⟨rfl, rfl, rfl⟩ | ⟨hne, hj⟩
    · rw [hI.val _ _ _ hi]
      dsimp only
      rw [hv]; simp
    · rw [hI.val _ _ _ hj, (hU.others (hI.arr _ _ _ hj) (hI.apart _ _ _ _ _ _ (Ne.symm hne) hi hj)).2]
      simp [Ne.symm hne]
  · intro j1 j2 k1 s1 k2 s2 hne h1 h2
    rcases get j1 k1 s1 h1 with ⟨rfl, rfl, rfl⟩ | ⟨hn1, h1'⟩
    · rcases get j2 k2 s2 h2 with ⟨rfl, rfl, rfl⟩ | ⟨hn2, h2⟩
      · exact absurd rfl hne
      · exact hU.apart (hI.arr _ _ _ h2) (hI.apart _ _ _ _ _ _ hne hi h2)
    · rcases get j2 k2 s2 h2 with ⟨rfl, rfl, rfl⟩ | ⟨hn2, h2⟩
      · exact (hU.apart (hI.arr _ _ _ h1') (hI.apart _ _ _ _ _ _ (Ne.symm hne) hi h1')).symm
      · exact hI.apart _ _ _ _ _ _ hne h1' h2

/-- The arena moved on; nothing below its old position changed. -/
structure ArenaFrame (a a' : Arena) : Prop where
  beg : a.beg ≤ a'.beg
  stop : a'.stop = a.stop
  mem : ∀ x, x < a.beg → a'.mem x = a.mem x

theorem ArrOK.frame {lo : Int} {a a' : Arena} {k : Kind} {s : Arr} (h : ArrOK lo a k s) (hF : ArenaFrame a a') :
    ArrOK lo a' k s ∧ readArr a'.mem k s = readArr a.mem k s := by
  constructor
  · exact ⟨h.kind, h.len0, h.lenCap, h.none, h.cap, h.lo, fun b hb => (h.beg b hb).trans hF.beg,
      fun b hb => hF.stop ▸ h.stop b hb, h.aligned⟩
  · cases hb : s.buf with
    | none => unfold readArr; rw [hb]
    | some b =>
      refine readArr_move h.kind.1 hb hb rfl h.len0 fun x h0 hx => ?_
      have := h.beg b hb
      have hle : k.size * s.len ≤ k.size * s.cap := by
        have := h.lenCap; have := h.kind.1; nlinarith
      exact hF.mem _ (by omega)

theorem HInv.frame {a0 : Arena} {h : Heap} {vs : List (List Elem)} (hI : HInv a0 h vs) {a' : Arena}
    (hF : ArenaFrame h.arena a') : HInv a0 ⟨a', h.arrs⟩ vs :=
  ⟨hI.beg.trans hF.beg, hF.stop.trans hI.stop, hI.len, fun i k s hi => ((hI.arr i k s hi).frame hF).1,
    fun i k s hi => by rw [hI.val i k s hi, ((hI.arr i k s hi).frame hF).2], hI.apart⟩

theorem HInv.add {a0 : Arena} {h : Heap} {vs : List (List Elem)} (hI : HInv a0 h vs) {k : Kind} {s : Arr}
    (hs : ArrOK a0.beg h.arena k s)
    (hap : ∀ (i : Nat) k2 s2, h.arrs[i]? = some (k2, s2) → Apart k2 s2 k s) :
    HInv a0 ⟨h.arena, h.arrs ++ [(k, s)]⟩ (vs ++ [readArr h.arena.mem k s]) := by
  have get : ∀ (j : Nat) k2 s2, (h.arrs ++ [(k, s)])[j]? = some (k2, s2) →
      (j = h.arrs.length ∧ k2 = k ∧ s2 = s) ∨ (j ≠ h.arrs.length ∧ h.arrs[j]? = some (k2, s2)) := by
    intro j k2 s2 hj
    by_cases hlt : j < h.arrs.length
    · rw [List.getElem?_append_left hlt] at hj
      exact Or.inr ⟨by omega, hj⟩
    · rw [List.getElem?_append_right (by omega)] at hj
      obtain ⟨hz, he⟩ := List.getElem?_eq_some_iff.1 hj
      simp at hz
      have : j - h.arrs.length = 0 := by omega
      simp [this] at he
      exact Or.inl ⟨by omega, he.1.symm, he.2.symm⟩
  refine ⟨hI.beg, hI.stop, by simp [hI.len], ?_, ?_, ?_⟩
  · intro j k2 s2 hj
    rcases get j k2 s2 hj with ⟨rfl, rfl, rfl⟩ | ⟨hne, hj⟩
    · exact hs
    · exact hI.arr _ _ _ hj
  · intro j k2 s2 hj
    rcases get j k2 s2 hj with ⟨rfl, rfl, rfl⟩ | ⟨hne, hj⟩
    · rw [← hI.len]; simp
    · have : j < vs.length := by rw [hI.len]; exact (List.getElem?_eq_some_iff.1 hj).1
      rw [List.getElem?_append_left this]
      exact hI.val _ _ _ hj
  · intro j1 j2 k1 s1 k2 s2 hne h1 h2
    rcases get j1 k1 s1 h1 with ⟨rfl, rfl, rfl⟩ | ⟨hn1, h1'⟩
    · rcases get j2 k2 s2 h2 with ⟨rfl, rfl, rfl⟩ | ⟨hn2, h2⟩
      · exact absurd rfl hne
      · exact (hap _ _ _ h2).symm
    · rcases get j2 k2 s2 h2 with ⟨rfl, rfl, rfl⟩ | ⟨hn2, h2⟩
      · exact hap _ _ _ h1'
      · exact hI.apart _ _ _ _ _ _ hne h1' h2

theorem HInv.entry {a0 : Arena} {h : Heap} {vs : List (List Elem)} (hI : HInv a0 h vs) {i : Nat} (hi : i < h.arrs.length) :
    ∃ k s, h.arrs[i]? = some (k, s) ∧ vs.getD i [] = readArr h.arena.mem k s := by
  refine ⟨h.arrs[i].1, h.arrs[i].2, by simp [hi], ?_⟩
  rw [List.getD_eq_getElem?_getD, hI.val i _ _ (List.getElem?_eq_getElem hi)]; rfl

theorem HInv.step {a0 : Arena} {h : Heap} {vs : List (List Elem)} (hI : HInv a0 h vs) {op : HOp} (hv : op.Valid h vs) :
    runH op h = .longjmp ∨ ∃ h', runH op h = .ok h' ∧ HInv a0 h' (absH op vs) := by
  cases op with
  | new k =>
    right
    refine ⟨_, rfl, ?_⟩
    have hok : ArrOK a0.beg h.arena k Arr.empty :=
      ⟨hv, le_refl _, le_refl _, fun _ => rfl, fun _ e => by simp [Arr.empty] at e, fun _ e => by simp [Arr.empty] at e,
        fun _ e => by simp [Arr.empty] at e, fun _ e => by simp [Arr.empty] at e, fun _ e => by simp [Arr.empty] at e⟩
    exact hI.add hok (fun i k2 s2 _ b b' _ e => by simp [Arr.empty] at e)
  | push i zero e =>
    obtain ⟨k, s, hi, he⟩ := hv
    simp only [runH, hi]
    rcases arrPushElem_spec (zero := zero) (e := e) (hI.arr i k s hi) hI.beg he with h1 | ⟨s', a', h1, hU, hr⟩
    · left; rw [h1]; rfl
    · right; rw [h1]
      exact ⟨_, rfl, hI.upd (f := (· ++ [e])) hi hU hr⟩
  | set i t e =>
    obtain ⟨k, s, hi, he, ht⟩ := hv
    have hok := hI.arr i k s hi
    have hval : vs.getD i [] = readArr h.arena.mem k s := by
      rw [List.getD_eq_getElem?_getD, hI.val i k s hi]; rfl
    rw [hval] at ht
    simp only [runH, hi]
    unfold arrSet
    cases hb : s.buf with
    | none => unfold readArr at ht; rw [hb] at ht; simp at ht
    | some b =>
      right
      rw [length_readArr hb] at ht
      refine ⟨_, rfl, ?_⟩
      have hl := hok.lenCap
      have hm := mul_slot (t := t) (c := s.cap) hok.kind.1 (by omega)
      have hm0 : 0 ≤ k.size * (t : Int) := mul_nonneg hok.kind.1.le (by omega)
      have hU := (Resv.refl hok).upd.write (b := b) (p := b + k.size * t) (l := s.len) (d := e) hb (by omega) (by omega)
        hok.len0 hok.lenCap
      have := hI.upd (f := (·.set t e)) hi hU (readArr_set (m := h.arena.mem) hok.kind.1 hb he)
      have hset : h.arrs.set i (k, { s with len := s.len }) = h.arrs := by
        refine List.ext_getElem? fun j => ?_
        rw [List.getElem?_set]
        by_cases hij : i = j
        · subst hij
          rw [if_pos rfl, if_pos (List.getElem?_eq_some_iff.1 hi).1, hi]
        · rw [if_neg hij]
      rw [hset] at this
      exact this
  | copy i =>
    obtain ⟨hlt, hne⟩ := hv
    obtain ⟨k, s, hi, hval⟩ := hI.entry hlt
    have hok := hI.arr i k s hi
    rw [hval] at hne
    simp only [runH, hi]
    unfold arrCopy
    cases hb : s.buf with
    | none => unfold readArr at hne; rw [hb] at hne; simp at hne
    | some b =>
      have hl0 := hok.len0
      have hlpos : 0 < s.len := by
        rcases lt_or_eq_of_le hl0 with h1 | h1
        · exact h1
        · exact absurd (List.eq_nil_of_length_eq_zero (by rw [length_readArr hb]; omega)) hne
      rcases alloc_post (size := k.size) (align := k.align) (count := s.len) (zero := false) (a := h.arena) hok.kind.1
        hok.kind.2.1 hl0 with hj | ⟨p, a', he, hA⟩
      · left; rw [hj]; rfl
      · right
        rw [he]
        refine ⟨_, rfl, ?_⟩
        have hfit := hA.fits hlpos
        have hbeg := hA.beg
        have hab := hA.above
        have hlo := hI.beg
        have hbb := hok.beg b hb
        have hmul : s.len * k.size = k.size * s.len := mul_comm _ _
        have hz := hok.kind.1
        have hmp : 0 < k.size * s.len := by positivity
        have hlc : k.size * s.len ≤ k.size * s.cap := by have := hok.lenCap; nlinarith
        have hF : ArenaFrame h.arena { a' with mem := memCopy p b (s.len * k.size) a'.mem } := by
          refine ⟨by dsimp only; omega, hA.stop, fun x hx => ?_⟩
          show memCopy p b (s.len * k.size) a'.mem x = _
          unfold memCopy; rw [if_neg (by omega)]; exact hA.below x (by omega)
        have hI' := hI.frame hF
        have hns : ArrOK a0.beg { a' with mem := memCopy p b (s.len * k.size) a'.mem } k ⟨some p, s.len, s.len⟩ := by
          refine ⟨hok.kind, hl0, le_refl _, fun e => by simp at e, fun _ _ => hlpos, ?_, ?_, ?_, ?_⟩
          · rintro b ⟨⟩; omega
          · rintro b ⟨⟩; dsimp only; omega
          · rintro b ⟨⟩; dsimp only; rw [hA.stop]; exact hfit
          · rintro b ⟨⟩; exact hA.aligned
        have := hI'.add hns (fun j k2 s2 hj b1 b2 hb1 hb2 => by
          cases hb2
          left
          have := (hI.arr j k2 s2 hj).beg b1 hb1
          omega)
        have hread : readArr (memCopy p b (s.len * k.size) a'.mem) k ⟨some p, s.len, s.len⟩ = readArr h.arena.mem k s := by
          refine readArr_move hz hb rfl rfl hl0 fun x h0 hx => ?_
          unfold memCopy; rw [if_pos (by omega), hA.below _ (by omega)]
          congr 1; omega
        show HInv a0 _ (vs ++ [vs.getD i []])
        rw [hval, ← hread]
        exact this
  | append i data =>
    obtain ⟨s, hi⟩ := hv
    simp only [runH, hi]
    rcases rawAdd_spec (d := data) (hI.arr i _ s hi) hI.beg with h1 | ⟨s', a', h1, hU, hr⟩
    · left; rw [h1]; rfl
    · right; rw [h1]
      exact ⟨_, rfl, hI.upd (f := (· ++ data.map (fun c => [c]))) hi hU hr⟩
  | alloc r =>
    obtain ⟨hs, hal, hc⟩ := hv
    simp only [runH]
    rcases arenaAlloc_cases (zero := r.zero) (nof := r.nullOnFail) (a := h.arena) hs hal hc with ⟨p, a', he, hA⟩ | ⟨_, he⟩
    · right
      rw [he]
      have hm : 0 ≤ r.size * r.count := mul_nonneg hs.le hc
      have hbeg := hA.beg
      have hab := hA.above
      exact ⟨_, rfl, hI.frame ⟨by dsimp only; omega, hA.stop, fun x hx => hA.below x (by omega)⟩⟩
    · rw [he]
      cases r.nullOnFail
      · left; rfl
      · right; exact ⟨_, rfl, hI⟩

theorem bind_longjmp_iff {α β : Type} {x : Out α} {f : α → Out β} (h : (x >>= f) = .longjmp) :
    x = .longjmp ∨ ∃ v, x = .ok v ∧ f v = .longjmp := by
  cases x with
  | ok v => exact Or.inr ⟨v, rfl, h⟩
  | longjmp => exact Or.inl rfl
  | ub w => cases h
  | hang => cases h

theorem arrGrow_jump {lo : Int} {k : Kind} {zero : Bool} {a : Arena} {s : Arr} (h : ArrOK lo a k s) (hc : s.len = s.cap)
    (hj : arrGrow k.size k.align zero s a = .longjmp) : a.stop - a.beg < 2 * k.size * max 1 s.len + k.align := by
  obtain ⟨hz, hal, _⟩ := h.kind
  have hpos := hal.pos
  have hl0 := h.len0
  have hm1 : 2 * k.size ≤ 2 * k.size * max 1 s.len := by
    have : 1 ≤ max 1 s.len := le_max_left _ _
    nlinarith
  have hm2 : 2 * k.size * s.len ≤ 2 * k.size * max 1 s.len := by
    have : s.len ≤ max 1 s.len := le_max_right _ _
    nlinarith
  unfold arrGrow at hj
  cases hb : s.buf with
  | none =>
    rw [hb] at hj
    dsimp only at hj
    rcases bind_longjmp_iff hj with h1 | ⟨⟨p, a'⟩, _, h2⟩
    · have := (alloc_noJump (by omega) hal (by omega) h1).2; omega
    · cases h2
  | some b =>
    rw [hb] at hj
    dsimp only at hj
    split at hj
    · rcases bind_longjmp_iff hj with h1 | ⟨⟨p, a'⟩, _, h2⟩
      · have := (alloc_noJump hz isAlign_one (by omega) h1).2
        have : k.size * s.len ≤ 2 * k.size * s.len := by nlinarith
        rw [← hc] at *
        omega
      · cases h2
    · rcases bind_longjmp_iff hj with h1 | ⟨⟨p, a'⟩, _, h2⟩
      · have := (alloc_noJump (by omega) hal (by omega) h1).2
        rw [← hc] at this
        omega
      · cases p <;> cases h2

theorem arrPush_jump {lo : Int} {k : Kind} {zero : Bool} {a : Arena} {s : Arr} (h : ArrOK lo a k s)
    (hj : arrPush k.size k.align zero s a = .longjmp) : a.stop - a.beg < 2 * k.size * max 1 s.len + k.align := by
  unfold arrPush at hj
  rcases bind_longjmp_iff hj with h1 | ⟨⟨s', a'⟩, _, h2⟩
  · unfold arrReserve at h1
    split at h1
    · next hc => exact arrGrow_jump h (le_antisymm h.lenCap hc) h1
    · cases h1
  · dsimp only at h2
    split at h2 <;> cases h2

theorem length_val {lo : Int} {k : Kind} {a : Arena} {s : Arr} (h : ArrOK lo a k s) :
    s.len = ((readArr a.mem k s).length : Int) := by
  cases hb : s.buf with
  | none => have := h.none hb; have := h.len0; have := h.lenCap; unfold readArr; rw [hb]; simp; omega
  | some b => rw [length_readArr hb]; have := h.len0; omega

/-- A step takes the failure handler only if less memory is free than it needs. -/
theorem HInv.jump {a0 : Arena} {h : Heap} {vs : List (List Elem)} (hI : HInv a0 h vs) {op : HOp} (hv : op.Valid h vs)
    (hj : runH op h = .longjmp) : h.arena.stop - h.arena.beg < op.need h vs := by
  cases op with
  | new k => cases hj
  | push i zero e =>
    obtain ⟨k, s, hi, _⟩ := hv
    have hval := hI.val i k s hi
    have hok := hI.arr i k s hi
    have hl := length_val hok
    have hg : vs.getD i [] = readArr h.arena.mem k s := by rw [List.getD_eq_getElem?_getD, hval]; rfl
    unfold runH at hj
    simp only [hi] at hj
    unfold HOp.need
    simp only [hi]
    rw [hg, ← hl]
    rcases bind_longjmp_iff hj with h1 | ⟨⟨s', a'⟩, _, h2⟩
    · unfold arrPushElem at h1
      rcases bind_longjmp_iff h1 with h3 | ⟨⟨p, s', a'⟩, _, h2⟩
      · exact arrPush_jump hok h3
      · cases h2
    · cases h2
  | set i t e =>
    obtain ⟨k, s, hi, _⟩ := hv
    unfold runH at hj
    simp only [hi] at hj
    rcases bind_longjmp_iff hj with h1 | ⟨a', _, h2⟩
    · unfold arrSet at h1
      split at h1 <;> cases h1
    · cases h2
  | copy i =>
    obtain ⟨k, s, hi, hg⟩ := hI.entry hv.1
    have hok := hI.arr i k s hi
    have hl := length_val hok
    unfold runH at hj
    simp only [hi] at hj
    unfold HOp.need
    simp only [hi]
    rw [hg, ← hl]
    rcases bind_longjmp_iff hj with h1 | ⟨⟨s', a'⟩, _, h2⟩
    · unfold arrCopy at h1
      rcases bind_longjmp_iff h1 with h3 | ⟨⟨p, a'⟩, _, h2⟩
      · exact (alloc_noJump hok.kind.1 hok.kind.2.1 hok.len0 h3).2
      · dsimp only at h2
        split at h2 <;> cases h2
    · cases h2
  | append i data =>
    obtain ⟨s, hi⟩ := hv
    have hval := hI.val i _ s hi
    have hok := hI.arr i _ s hi
    have hl := length_val hok
    have hl0 := hok.len0
    have hg : vs.getD i [] = readArr h.arena.mem ⟨1, 1⟩ s := by rw [List.getD_eq_getElem?_getD, hval]; rfl
    unfold runH at hj
    simp only [hi] at hj
    unfold HOp.need
    dsimp only
    rw [hg, ← hl]
    rcases bind_longjmp_iff hj with h1 | ⟨⟨s', a'⟩, _, h2⟩
    · unfold rawAdd at h1
      rcases bind_longjmp_iff h1 with h3 | ⟨⟨s', a'⟩, _, h2⟩
      · have key : ∀ x : Option Int × Arena → Out (Arr × Arena), (∀ v, x v ≠ .longjmp) →
            (arenaAlloc 1 1 ((s.len + (data.length : Int)) * 2) false false h.arena >>= x) = .longjmp →
            h.arena.stop - h.arena.beg < 2 * (s.len + (data.length : Int)) + 1 := by
          intro x hx hj
          rcases bind_longjmp_iff hj with h4 | ⟨v, _, h5⟩
          · have := (alloc_noJump (by omega) isAlign_one (by omega) h4).2; omega
          · exact absurd h5 (hx v)
        unfold rawReserve at h3
        split at h3
        · dsimp only at h3
          split at h3
          · exact key _ (fun v => by intro h; cases h) h3
          · split at h3
            · exact key _ (fun v => by intro h; cases h) h3
            · refine key _ (fun v => ?_) h3
              obtain ⟨p, a'⟩ := v
              dsimp only
              cases p <;> (intro h; cases h)
        · cases h3
      · dsimp only at h2
        split at h2
        · cases h2
        · split at h2 <;> cases h2
    · cases h2
  | alloc r =>
    obtain ⟨hs, hal, hc⟩ := hv
    unfold runH at hj
    rcases bind_longjmp_iff hj with h1 | ⟨v, _, h2⟩
    · have := alloc_noJump hs hal hc h1
      unfold HOp.need Req.bytes
      dsimp only
      rw [if_neg (by simp [this.1])]
      exact this.2
    · cases h2

theorem Spec.Hist.inv {a : Arena} {h : Heap} {vs : List (List Elem)} (hH : Hist a h vs) : HInv a h vs := by
  induction hH with
  | start hok => exact ⟨le_refl _, rfl, rfl, by simp, by simp, by simp⟩
  | step _ hv he ih =>
    rcases ih.step hv with h1 | ⟨h', h1, hI⟩
    · rw [h1] at he; cases he
    · rw [h1] at he; cases he; exact hI

end Flo
