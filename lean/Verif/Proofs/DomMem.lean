import Verif.Model.DomMem
import Verif.Proofs.Memory
import Verif.Proofs.Names
import Mathlib.Tactic.Linarith
/-!
# The DOM in memory represents the DOM of lists: the tables and the maps
-/
namespace Flo
open Spec

/-! ## Numbers -/

theorem leBytes_length : ∀ (n v : Nat), (leBytes n v).length = n
  | 0, _ => rfl
  | n + 1, v => by simp only [leBytes, List.length_cons, leBytes_length n]

theorem readLE_congr {m m' : Int → UInt8} {p p' : Int} : ∀ {n : Nat}, (∀ j : Int, 0 ≤ j → j < n → m' (p' + j) = m (p + j)) →
    readLE m' p' n = readLE m p n := by
  intro n
  induction n generalizing p p' with
  | zero => intro _; rfl
  | succ n ih =>
    intro h
    simp only [readLE]
    have h0 := h 0 (by omega) (by push_cast; omega)
    rw [Int.add_zero, Int.add_zero] at h0
    rw [h0, ih (p := p + 1) (p' := p' + 1)]
    intro j hj hj'
    have := h (1 + j) (by omega) (by push_cast; omega)
    rw [← Int.add_assoc, ← Int.add_assoc] at this
    exact this

theorem readLE_lt (m : Int → UInt8) : ∀ (n : Nat) (p : Int), readLE m p n < 256 ^ n
  | 0, _ => by simp [readLE]
  | n + 1, p => by
    simp only [readLE]
    have := readLE_lt m n (p + 1)
    have := (m p).toNat_lt
    have e : 256 ^ (n + 1) = 256 ^ n * 256 := pow_succ _ _
    omega

theorem memWrite_in {m : Int → UInt8} {p x : Int} {e : List UInt8} (h : p ≤ x) (h' : x < p + e.length) :
    memWrite p e m x = e.getD (x - p).toNat 0 := by unfold memWrite; rw [if_pos ⟨h, h'⟩]

theorem memWrite_out {m : Int → UInt8} {p x : Int} {e : List UInt8} (h : x < p ∨ p + e.length ≤ x) : memWrite p e m x = m x := by
  unfold memWrite; rw [if_neg (by omega)]

/-- Reading back bytes that hold the number `v`. -/
theorem readLE_bytes {m : Int → UInt8} : ∀ {n v : Nat} {p : Int}, v < 256 ^ n →
    (∀ i : Nat, i < n → m (p + (i : Int)) = (leBytes n v).getD i 0) → readLE m p n = v := by
  intro n
  induction n with
  | zero => intro v p hv _; simp [readLE] at *; omega
  | succ n ih =>
    intro v p hv h
    simp only [readLE]
    have h0 := h 0 (by omega)
    simp only [leBytes, List.getD_cons_zero] at h0
    rw [show p + ((0 : Nat) : Int) = p by omega] at h0
    have e : 256 ^ (n + 1) = 256 ^ n * 256 := pow_succ _ _
    rw [ih (v := v / 256) (p := p + 1) (by omega)]
    · rw [h0]
      have : (UInt8.ofNat v).toNat = v % 256 := UInt8.toNat_ofNat'
      omega
    · intro i hi
      have := h (i + 1) (by omega)
      simp only [leBytes, List.getD_cons_succ] at this
      rw [← this]
      congr 1
      push_cast; omega

/-- Reading a number from the bytes just written: `e` is split as `pre ++ leBytes n v ++ post`. -/
theorem readLE_write {m : Int → UInt8} {p : Int} {pre post : List UInt8} {n v : Nat} (hv : v < 256 ^ n) {q : Int}
    (hq : q = p + pre.length) : readLE (memWrite p (pre ++ (leBytes n v ++ post)) m) q n = v := by
  subst hq
  refine readLE_bytes hv fun i hi => ?_
  have hl := leBytes_length n v
  rw [memWrite_in (by omega) (by simp only [List.length_append]; push_cast; omega)]
  rw [show (p + (pre.length : Int) + (i : Int) - p).toNat = pre.length + i by omega]
  rw [List.getD_eq_getElem?_getD, List.getElem?_append_right (by omega), List.getD_eq_getElem?_getD]
  rw [show pre.length + i - pre.length = i by omega, List.getElem?_append_left (by omega)]

theorem readLE_other {m : Int → UInt8} {p q : Int} {e : List UInt8} {n : Nat} (h : p + e.length ≤ q ∨ q + n ≤ p) :
    readLE (memWrite p e m) q n = readLE m q n :=
  readLE_congr fun j _ _ => memWrite_out (by omega)

/-! ## Strings -/

theorem MStr.read_length (mem : Int → UInt8) (r : MStr) : (r.read mem).length = r.len := by
  unfold MStr.read; simp

theorem MStr.read_eq {mem : Int → UInt8} {r : MStr} {s : Str} (hl : r.len = s.length)
    (h : ∀ (i : Nat) c, s[i]? = some c → mem (r.ptr + (i : Int)) = c) : r.read mem = s := by
  unfold MStr.read
  refine List.ext_getElem (by simp [hl]) fun i h1 h2 => ?_
  simp only [List.getElem_map, List.getElem_range]
  exact h i _ (List.getElem?_eq_getElem h2)

/-! ## Who uses a byte -/

inductive Owner where
  | free
  | fixed
  | other
  | arr (k : Nat)
  | cell (j depth : Nat)
  deriving DecidableEq

/-- The bytes of `s` are at `q`, in memory nobody writes to. -/
def StrAt (mem : Int → UInt8) (own : Int → Owner) (q : Int) (s : Str) : Prop :=
  ∀ (i : Nat) c, s[i]? = some c → own (q + (i : Int)) = .fixed ∧ mem (q + (i : Int)) = c

/-- A `flo_String` object at `p` designates `s`. -/
def StrIn (mem : Int → UInt8) (own : Int → Owner) (p : Int) (s : Str) : Prop :=
  readLE mem (p + 8) 8 = s.length ∧ StrAt mem own (readLE mem p 8 : Nat) s

/-- Everything that is fixed stays. -/
def Fixed (own own' : Int → Owner) (mem mem' : Int → UInt8) : Prop := ∀ x, own x = .fixed → own' x = .fixed ∧ mem' x = mem x

theorem StrAt.keep {own own' : Int → Owner} {mem mem' : Int → UInt8} {q : Int} {s : Str} (h : StrAt mem own q s)
    (hf : Fixed own own' mem mem') : StrAt mem' own' q s := by
  intro i c hc
  obtain ⟨h1, h2⟩ := h i c hc
  obtain ⟨h3, h4⟩ := hf _ h1
  exact ⟨h3, h4.trans h2⟩

theorem StrIn.move {own own' : Int → Owner} {mem mem' : Int → UInt8} {p p' : Int} {s : Str} (h : StrIn mem own p s)
    (hf : Fixed own own' mem mem') (hm : ∀ j : Int, 0 ≤ j → j < 16 → mem' (p' + j) = mem (p + j)) : StrIn mem' own' p' s := by
  unfold StrIn at h ⊢
  have e1 : readLE mem' p' 8 = readLE mem p 8 := readLE_congr fun j h0 h1 => hm j h0 (by omega)
  have e2 : readLE mem' (p' + 8) 8 = readLE mem (p + 8) 8 := readLE_congr fun j h0 h1 => by
    have := hm (8 + j) (by omega) (by omega)
    rw [← Int.add_assoc, ← Int.add_assoc] at this; exact this
  rw [e1, e2]
  exact ⟨h.1, h.2.keep hf⟩

theorem StrIn.read {mem : Int → UInt8} {own : Int → Owner} {p : Int} {s : Str} (h : StrIn mem own p s) :
    (loadStr mem p).read mem = s :=
  MStr.read_eq h.1 fun i c hc => (h.2 i c hc).2

/-! ## Elements of the tables -/

/-- What it means that an element is in memory. -/
abbrev ElemAt (α : Type) := (Int → UInt8) → (Int → Owner) → Int → Nat → α → Prop

def RowAt : ElemAt Row := fun mem _ p _ r => readLE mem p 2 = r.1 ∧ readLE mem (p + 2) 2 = r.2

def PropAt : ElemAt PropRow := fun mem _ p _ r => readLE mem p 2 = r.node ∧ readLE mem (p + 2) 2 = r.key ∧ readLE mem (p + 4) 2 = r.value

def NameAt : ElemAt Str := fun mem own p _ s => StrIn mem own p s

def TagAt : ElemAt (Str × Bool) := fun mem own p _ r => StrIn mem own p r.1 ∧ readLE mem (p + 16) 8 = (if r.2 then 1 else 0)

def NodeAt : ElemAt Node := fun mem own p i nd =>
  readLE mem p 2 = i ∧ readLE mem (p + 4) 4 = nd.type.code ∧
    match nd.payload with
    | .tag t => readLE mem (p + 8) 2 = t
    | .text s => StrIn mem own (p + 8) s

/-- An element depends on its bytes and on fixed memory only. -/
structure Movable {α : Type} (size : Int) (E : ElemAt α) : Prop where
  move : ∀ {mem mem' own own' p p' i x}, E mem own p i x → Fixed own own' mem mem' →
    (∀ j : Int, 0 ≤ j → j < size → mem' (p' + j) = mem (p + j)) → E mem' own' p' i x

theorem readLE_at {m m' : Int → UInt8} {p p' size : Int} (hm : ∀ j : Int, 0 ≤ j → j < size → m' (p' + j) = m (p + j)) {o : Int} {n : Nat}
    (ho : 0 ≤ o) (hn : o + n ≤ size) : readLE m' (p' + o) n = readLE m (p + o) n :=
  readLE_congr fun j h0 h1 => by
    have := hm (o + j) (by omega) (by omega)
    rw [← Int.add_assoc, ← Int.add_assoc] at this; exact this

theorem readLE_at0 {m m' : Int → UInt8} {p p' size : Int} (hm : ∀ j : Int, 0 ≤ j → j < size → m' (p' + j) = m (p + j)) {n : Nat}
    (hn : n ≤ size) : readLE m' p' n = readLE m p n :=
  readLE_congr fun j h0 h1 => hm j h0 (by omega)

theorem StrIn.moveAt {own own' : Int → Owner} {mem mem' : Int → UInt8} {p p' size o : Int} {s : Str} (h : StrIn mem own (p + o) s)
    (hf : Fixed own own' mem mem') (hm : ∀ j : Int, 0 ≤ j → j < size → mem' (p' + j) = mem (p + j)) (ho : 0 ≤ o) (hs : o + 16 ≤ size) :
    StrIn mem' own' (p' + o) s :=
  h.move hf fun j h0 h1 => by
    have := hm (o + j) (by omega) (by omega)
    rw [← Int.add_assoc, ← Int.add_assoc] at this; exact this

theorem rowAt_movable : Movable 4 RowAt := by
  constructor
  intro mem mem' own own' p p' i x h hf hm
  refine ⟨?_, ?_⟩
  · rw [readLE_at0 hm (by omega)]; exact h.1
  · rw [readLE_at hm (by omega) (by omega)]; exact h.2

theorem propAt_movable : Movable 6 PropAt := by
  constructor
  intro mem mem' own own' p p' i x h hf hm
  refine ⟨?_, ?_, ?_⟩
  · rw [readLE_at0 hm (by omega)]; exact h.1
  · rw [readLE_at hm (by omega) (by omega)]; exact h.2.1
  · rw [readLE_at hm (by omega) (by omega)]; exact h.2.2

theorem nameAt_movable : Movable 16 NameAt := by
  constructor
  intro mem mem' own own' p p' i x h hf hm
  exact StrIn.move h hf hm

theorem tagAt_movable : Movable 24 TagAt := by
  constructor
  intro mem mem' own own' p p' i x h hf hm
  refine ⟨StrIn.move h.1 hf (fun j h0 h1 => hm j h0 (by omega)), ?_⟩
  rw [readLE_at hm (by omega) (by omega)]; exact h.2

theorem nodeAt_movable : Movable 24 NodeAt := by
  constructor
  intro mem mem' own own' p p' i x h hf hm
  obtain ⟨h1, h2, h3⟩ := h
  refine ⟨?_, ?_, ?_⟩
  · rw [readLE_at0 hm (by omega)]; exact h1
  · rw [readLE_at hm (by omega) (by omega)]; exact h2
  · cases hp : x.payload with
    | tag t => rw [hp] at h3; dsimp only at h3 ⊢; rw [readLE_at hm (by omega) (by omega)]; exact h3
    | text s => rw [hp] at h3; dsimp only at h3 ⊢; exact h3.moveAt hf hm (by omega) (by omega)

/-! ## Arrays -/

structure ArrRep {α : Type} (own : Int → Owner) (o : Owner) (k : Kind) (E : ElemAt α) (lo : Int) (a : Arena) (s : Arr) (l : List α) :
    Prop where
  ok : ArrOK lo a k s
  len : s.len = l.length
  cap2 : s.cap ≤ 2 * s.len
  one : ∀ b, s.buf = some b → 1 ≤ s.cap
  mine : ∀ b, s.buf = some b → ∀ x, b ≤ x → x < b + k.size * s.cap → own x = o
  at_ : ∀ b, s.buf = some b → ∀ (i : Nat) x, l[i]? = some x → E a.mem own (b + k.size * (i : Int)) i x

/-- What happens around a step of the owners `O`: all other memory in use stays. -/
structure Around (O : Owner → Prop) (own : Int → Owner) (a : Arena) (own' : Int → Owner) (a' : Arena) : Prop where
  beg : a.beg ≤ a'.beg
  top : a'.beg ≤ a'.stop
  stop : a'.stop = a.stop
  stays : ∀ x, own x ≠ .free → ¬O (own x) → own' x = own x ∧ a'.mem x = a.mem x
  free : ∀ x, a'.beg ≤ x → x < a.stop → own x = .free → own' x = .free

theorem ArrRep.other {α : Type} {own own' : Int → Owner} {O : Owner → Prop} {o : Owner} {k : Kind} {E : ElemAt α} {lo : Int} {a a' : Arena} {s : Arr}
    {l : List α} (hE : Movable k.size E) (h : ArrRep own o k E lo a s l) (hA : Around O own a own' a') (ho : ¬O o) (hof : o ≠ .free)
    (ho' : ¬O .fixed) : ArrRep own' o k E lo a' s l := by
  have hblk : ∀ b, s.buf = some b → ∀ x, b ≤ x → x < b + k.size * s.cap → own' x = o ∧ a'.mem x = a.mem x := by
    intro b hb x h1 h2
    have e := h.mine b hb x h1 h2
    have := hA.stays x (by rw [e]; exact hof) (by rw [e]; exact ho)
    exact ⟨this.1.trans e, this.2⟩
  have hz := h.ok.kind.1
  refine ⟨⟨h.ok.kind, h.ok.len0, h.ok.lenCap, h.ok.none, h.ok.cap, h.ok.lo, fun b hb => (h.ok.beg b hb).trans hA.beg,
    fun b hb => hA.stop ▸ h.ok.stop b hb, h.ok.aligned⟩, h.len, h.cap2, h.one, fun b hb x h1 h2 => (hblk b hb x h1 h2).1, ?_⟩
  intro b hb i x hx
  have hi : (i : Int) < s.len := by rw [h.len]; exact_mod_cast (List.getElem?_eq_some_iff.1 hx).1
  have := h.ok.lenCap
  have hm := mul_slot (z := k.size) (t := (i : Int)) (c := s.cap) hz (by omega)
  have hm0 : 0 ≤ k.size * (i : Int) := by positivity
  refine hE.move (h.at_ b hb i x hx) (fun y hy => ?_) (fun j h0 h1 => (hblk b hb _ (by omega) (by omega)).2)
  have := hA.stays y (by rw [hy]; decide) (by rw [hy]; exact ho')
  exact ⟨this.1.trans hy, this.2⟩

/-- An array with room for one element has 4 bytes less in the account. -/
def nook (c : Int) : Int := if c = 1 then 4 else 0

theorem nook_nonneg (c : Int) : 0 ≤ nook c := by unfold nook; split <;> omega
theorem nook_le {c : Int} (h : 0 ≤ c) : nook c ≤ 4 * c := by unfold nook; split <;> omega
theorem nook_one : nook 1 = 4 := rfl
theorem nook_zero {c : Int} (h : c ≠ 1) : nook c = 0 := if_neg h

/-- What making room in an array does: `s'` has a free slot, its block is the old one or new memory. -/
structure Room1 (lo : Int) (k : Kind) (a : Arena) (s : Arr) (a' : Arena) (s' : Arr) (b : Int) : Prop where
  ok : ArrOK lo a' k s'
  buf : s'.buf = some b
  len : s'.len = s.len
  lt : s.len < s'.cap
  cap2 : s'.cap ≤ 2 * (s.len + 1)
  one : 1 ≤ s'.cap
  beg : a.beg ≤ a'.beg
  top : a'.beg ≤ a'.stop
  stop : a'.stop = a.stop
  blk : ∀ x, b ≤ x → x < b + k.size * s'.cap → (∃ b0, s.buf = some b0 ∧ b0 ≤ x ∧ x < b0 + k.size * s.cap) ∨ (a.beg ≤ x ∧ x < a'.beg)
  mem : ∀ x, x < b ∨ b + k.size * s'.cap ≤ x → a'.mem x = a.mem x
  moved : ∀ b0, s.buf = some b0 → ∀ j, 0 ≤ j → j < k.size * s.len → a'.mem (b + j) = a.mem (b0 + j)
  ledger : a'.beg + ((2 * k.size + 4) * s.cap - nook s.cap) ≤ a.beg + ((2 * k.size + 4) * s'.cap - nook s'.cap)

theorem reserve_room {lo : Int} {k : Kind} {a : Arena} {s : Arr} (h : ArrOK lo a k s) (hc2 : s.cap ≤ 2 * s.len)
    (h2 : ∀ b, s.buf = some b → 1 ≤ s.cap) (hlo : lo ≤ a.beg) (htop : a.beg ≤ a.stop) (hal8 : k.align ≤ 8) :
    (arrReserve k.size k.align false s a = .longjmp ∧ s.len = s.cap ∧ a.stop < a.beg + 2 * k.size * max 1 s.cap + 8) ∨
    ∃ s' a' b, arrReserve k.size k.align false s a = .ok (s', a') ∧ Room1 lo k a s a' s' b := by
  obtain ⟨hz, hal, hdvd⟩ := h.kind
  have hl0 := h.len0
  have hlc := h.lenCap
  have hnone := h.none
  have hcap := h.cap
  have hbb := h.beg
  have hbs := h.stop
  have hbl := h.lo
  have hba := h.aligned
  have hk := h.kind
  obtain ⟨buf, len, cap⟩ := s
  dsimp only at hl0 hlc hnone hcap hbb hbs hbl hba hc2 h2
  unfold arrReserve
  dsimp only
  by_cases hc : len ≥ cap
  · rw [if_pos hc]
    have hcl : len = cap := le_antisymm hlc hc
    unfold arrGrow
    cases buf with
    | none =>
      have hcap := hnone rfl
      subst hcap
      dsimp only
      rcases alloc_post (size := 2 * k.size) (align := k.align) (count := 1) (zero := false) (a := a) (by omega) hal (by omega) with
        hj | ⟨p, a', he, hA⟩
      · left
        have := (alloc_noJump (by omega) hal (by omega) hj).2
        refine ⟨by rw [hj]; rfl, hcl, ?_⟩
        simp only [show max (1 : Int) 0 = 1 from rfl]
        omega
      · right
        rw [he]
        have hbeg := hA.beg
        have hab := hA.above
        have hcl' := hA.close
        have hst := hA.stop
        have hfit := hA.fits (by omega)
        have hmem := hA.keeps rfl
        refine ⟨⟨some p, len, 1 * 2⟩, a', p, rfl, ?_⟩
        constructor
        · constructor
          · exact hk
          · exact hl0
          · dsimp only; omega
          · intro e; cases e
          · intro b _; dsimp only; omega
          · intro b e; cases e; omega
          · intro b e; cases e; dsimp only; rw [hbeg]; linarith
          · intro b e; cases e; dsimp only; rw [hst]; linarith
          · intro b e; cases e; exact hA.aligned
        · rfl
        · rfl
        · dsimp only; omega
        · dsimp only; omega
        · dsimp only; omega
        · omega
        · omega
        · exact hst
        · intro x h1 h2
          dsimp only at h2
          right
          constructor
          · omega
          · rw [hbeg]; linarith
        · intro x _; rw [hmem]
        · intro b0 e; cases e
        · dsimp only; rw [hbeg, nook_zero (c := 0) (by omega), nook_zero (c := 1 * 2) (by omega)]; linarith
    | some b =>
      dsimp only
      have hcap := hcap b rfl
      have hb1 := hbb b rfl
      have hb2 := h2 b rfl
      have hm0 : 0 < k.size * cap := by positivity
      have hmax : max 1 cap = cap := max_eq_right (by omega)
      have hled : (2 * k.size + 4) * (cap * 2) = (2 * k.size + 4) * cap + (k.size * cap + k.size * cap + 4 * cap) := by ring
      have hnk2 : nook (cap * 2) = 0 := nook_zero (by omega)
      have hnk : 8 ≤ 4 * cap + nook cap := by
        by_cases hc1 : cap = 1
        · rw [hc1, nook_one]; omega
        · rw [nook_zero hc1]; omega
      by_cases hin : a.beg = b + k.size * cap
      · rw [if_pos hin]
        rcases alloc_post (size := k.size) (align := 1) (count := cap) (zero := false) (a := a) hz isAlign_one (by omega) with
          hj | ⟨p, a', he, hA⟩
        · left
          have := (alloc_noJump hz isAlign_one (by omega) hj).2
          refine ⟨by rw [hj]; rfl, hcl, ?_⟩
          rw [hmax]
          have : 2 * k.size * cap = k.size * cap + k.size * cap := by ring
          omega
        · right
          rw [he]
          have hbeg := hA.beg
          have hab := hA.above
          have hcl' := hA.close
          have hst := hA.stop
          have hfit := hA.fits (by omega)
          have hmem := hA.keeps rfl
          have hdbl : k.size * (cap * 2) = k.size * cap + k.size * cap := by ring
          refine ⟨⟨some b, len, cap * 2⟩, a', b, rfl, ?_⟩
          constructor
          · constructor
            · exact hk
            · exact hl0
            · dsimp only; omega
            · intro e; cases e
            · intro b _; dsimp only; omega
            · intro b' e; exact hbl b' e
            · intro b' e; cases e; dsimp only; rw [hbeg]; omega
            · intro b' e; cases e; dsimp only; rw [hst]; omega
            · intro b' e; exact hba b' e
          · rfl
          · rfl
          · dsimp only; omega
          · dsimp only; omega
          · dsimp only; omega
          · omega
          · omega
          · exact hst
          · intro x h1 h2
            dsimp only at h2
            by_cases hx : x < b + k.size * cap
            · exact Or.inl ⟨b, rfl, h1, hx⟩
            · right; omega
          · intro x _; rw [hmem]
          · intro b0 e j _ _; cases e; rw [hmem]
          · dsimp only
            omega
      · rw [if_neg hin]
        rcases alloc_post (size := 2 * k.size) (align := k.align) (count := cap) (zero := false) (a := a) (by omega) hal (by omega) with
          hj | ⟨p, a', he, hA⟩
        · left
          have := (alloc_noJump (by omega) hal (by omega) hj).2
          refine ⟨by rw [hj]; rfl, hcl, ?_⟩
          rw [hmax]
          omega
        · right
          rw [he]
          have hbeg := hA.beg
          have hab := hA.above
          have hcl' := hA.close
          have hst := hA.stop
          have hfit := hA.fits (by omega)
          have hmem := hA.keeps rfl
          have hdbl : k.size * (cap * 2) = k.size * cap + k.size * cap := by ring
          have hle : k.size * len = k.size * cap := by rw [hcl]
          have hdb : 2 * k.size * cap = k.size * cap + k.size * cap := by ring
          refine ⟨⟨some p, len, cap * 2⟩, { a' with mem := memCopy p b (k.size * len) a'.mem }, p, rfl, ?_⟩
          constructor
          · constructor
            · exact hk
            · exact hl0
            · dsimp only; omega
            · intro e; cases e
            · intro b _; dsimp only; omega
            · intro b' e; cases e; omega
            · intro b' e; cases e; dsimp only; rw [hbeg]; omega
            · intro b' e; cases e; dsimp only; rw [hst]; omega
            · intro b' e; cases e; exact hA.aligned
          · rfl
          · rfl
          · dsimp only; omega
          · dsimp only; omega
          · dsimp only; omega
          · dsimp only; omega
          · dsimp only; omega
          · exact hst
          · intro x h1 h2
            dsimp only at h2 ⊢
            right; omega
          · intro x hx
            dsimp only at hx ⊢
            unfold memCopy
            rw [if_neg (by omega), hmem]
          · intro b0 e j h0 h1
            cases e
            dsimp only at h1 ⊢
            unfold memCopy
            rw [if_pos (by omega), hmem]
            congr 1; omega
          · dsimp only
            omega
  · rw [if_neg hc]
    right
    cases buf with
    | none => have := hnone rfl; omega
    | some b =>
      refine ⟨⟨some b, len, cap⟩, a, b, rfl, h, rfl, rfl, (by dsimp only; omega), (by dsimp only; omega), h2 b rfl, le_refl _, htop, rfl, ?_,
        fun _ _ => rfl, ?_, le_refl _⟩
      · intro x h1 h2; exact Or.inl ⟨b, rfl, h1, h2⟩
      · intro b0 e j _ _; cases e; rfl

/-- The owner map after a step that gave the block of an array to it. -/
def ownBlk (own : Int → Owner) (o : Owner) (b n : Int) : Int → Owner := fun x => if b ≤ x ∧ x < b + n then o else own x

/-- Pushing an element. -/
theorem push_rep {α : Type} {own : Int → Owner} {o : Owner} {k : Kind} {E : ElemAt α} {lo : Int} {a : Arena} {s : Arr} {l : List α}
    {e : List UInt8} {x : α} (hE : Movable k.size E) (h : ArrRep own o k E lo a s l) (hlo : lo ≤ a.beg) (htop : a.beg ≤ a.stop)
    (hal8 : k.align ≤ 8) (hof : o ≠ .free) (hox : o ≠ .fixed) (hel : (e.length : Int) = k.size)
    (hfree : ∀ y, a.beg ≤ y → y < a.stop → own y = .free)
    (hnew : ∀ mem own' p, Fixed own own' a.mem (memWrite p e mem) → E (memWrite p e mem) own' p l.length x) :
    (arrPushElem k.size k.align false e s a = .longjmp ∧ s.len = s.cap ∧ a.stop < a.beg + 2 * k.size * max 1 s.cap + 8) ∨
    ∃ s' a' own', arrPushElem k.size k.align false e s a = .ok (s', a') ∧ ArrRep own' o k E lo a' s' (l ++ [x]) ∧
      Around (· = o) own a own' a' ∧ a'.beg + ((2 * k.size + 4) * s.cap - nook s.cap) ≤ a.beg + ((2 * k.size + 4) * s'.cap - nook s'.cap) := by
  unfold arrPushElem arrPush
  rcases reserve_room h.ok h.cap2 h.one hlo htop hal8 with ⟨hj, hr⟩ | ⟨s', a', b, he, hR⟩
  · left; exact ⟨by rw [hj]; rfl, hr⟩
  · right
    rw [he]
    have hlen := hR.len
    have hlt := hR.lt
    have hz := h.ok.kind.1
    have hl0 := h.ok.len0
    have hm := mul_slot (z := k.size) (t := s.len) (c := s'.cap) hz (by omega)
    have hm0 : 0 ≤ k.size * s.len := by positivity
    have hml : k.size * s.len = k.size * (l.length : Int) := by rw [h.len]
    have hml2 : k.size * s'.len = k.size * s.len := by rw [hlen]
    simp only [Out.bind_ok]
    rw [hR.buf]
    simp only [Out.bind_ok]
    have hst : ∀ y, own y ≠ .free → own y ≠ o → (y < b ∨ b + k.size * s'.cap ≤ y) := by
      intro y h1 h2
      by_contra hcon
      rcases hR.blk y (by omega) (by omega) with ⟨b0, e0, h3, h4⟩ | ⟨h3, h4⟩
      · exact h2 (h.mine b0 e0 y h3 h4)
      · exact h1 (hfree y h3 (by have := hR.top; have := hR.stop; omega))
    have hA : Around (· = o) own a (ownBlk own o b (k.size * s'.cap))
        { a' with mem := memWrite (b + k.size * s'.len) e a'.mem } := by
      refine ⟨hR.beg, hR.top, hR.stop, ?_, ?_⟩
      · intro y h1 h2
        have := hst y h1 h2
        refine ⟨?_, ?_⟩
        · unfold ownBlk; rw [if_neg (by omega)]
        · show memWrite _ _ _ _ = _
          rw [memWrite_out (by omega)]
          exact hR.mem y this
      · intro y h1 h2 h3
        have := hR.ok.beg b hR.buf
        dsimp only at h1
        unfold ownBlk; rw [if_neg (by omega)]; exact h3
    have hfix : Fixed own (ownBlk own o b (k.size * s'.cap)) a.mem (memWrite (b + k.size * s'.len) e a'.mem) := by
      intro y hy
      have := hA.stays y (by rw [hy]; decide) (by rw [hy]; exact hox.symm)
      exact ⟨this.1.trans hy, this.2⟩
    refine ⟨_, _, ownBlk own o b (k.size * s'.cap), rfl, ?_, hA, hR.ledger⟩
    constructor
    · constructor
      · exact h.ok.kind
      · dsimp only; omega
      · dsimp only; omega
      · intro e; cases e
      · intro b' e; dsimp only; omega
      · intro b' e; cases e; exact hR.ok.lo _ hR.buf
      · intro b' e; cases e; exact hR.ok.beg _ hR.buf
      · intro b' e; cases e; exact hR.ok.stop _ hR.buf
      · intro b' e; cases e; exact hR.ok.aligned _ hR.buf
    · dsimp only; rw [hlen, h.len]; simp
    · dsimp only; have := hR.cap2; omega
    · intro b' e; exact hR.one
    · intro b' e y h1 h2
      cases e
      unfold ownBlk; rw [if_pos ⟨h1, h2⟩]
    · intro b' e i y hy
      cases e
      rcases Nat.lt_trichotomy i l.length with hi | hi | hi
      · rw [List.getElem?_append_left hi] at hy
        cases hb0 : s.buf with
        | none => have := h.ok.none hb0; have := h.ok.lenCap; have := h.len; omega
        | some b0 =>
          refine hE.move (h.at_ b0 hb0 i y hy) hfix fun j h0 h1 => ?_
          have hm1 := mul_slot (z := k.size) (t := (i : Int)) (c := s.len) hz (by rw [h.len]; omega)
          have hm2 : 0 ≤ k.size * (i : Int) := by positivity
          show memWrite _ _ _ _ = _
          rw [memWrite_out (by left; rw [hlen]; omega)]
          have := hR.moved b0 hb0 (k.size * (i : Int) + j) (by omega) (by omega)
          rw [← Int.add_assoc, ← Int.add_assoc] at this
          exact this
      · subst hi
        rw [List.getElem?_append_right (le_refl _)] at hy
        simp only [Nat.sub_self, List.getElem?_cons_zero, Option.some.injEq] at hy
        subst hy
        have hp : b + k.size * s'.len = b + k.size * (l.length : Int) := by rw [hlen, h.len]
        show E (memWrite _ e a'.mem) _ _ _ _
        rw [hp] at hfix ⊢
        exact hnew _ _ _ hfix
      · rw [List.getElem?_eq_none (by simp; omega)] at hy; cases hy

/-- Writing a member of an element. -/
theorem poke_rep {α : Type} {own : Int → Owner} {o : Owner} {k : Kind} {E : ElemAt α} {lo : Int} {a : Arena} {s : Arr} {l : List α}
    {e : List UInt8} {n : Nat} {off : Int} {x y : α} (hE : Movable k.size E) (h : ArrRep own o k E lo a s l) (htop : a.beg ≤ a.stop)
    (hof : o ≠ .free) (hox : o ≠ .fixed) (h0 : 0 ≤ off) (hel : off + (e.length : Int) ≤ k.size) (hx : l[n]? = some x)
    (hnew : ∀ p, E a.mem own p n x → Fixed own own a.mem (memWrite (p + off) e a.mem) → E (memWrite (p + off) e a.mem) own p n y) :
    ∃ a', arrPoke k.size n off e s a = .ok a' ∧ ArrRep own o k E lo a' s (l.set n y) ∧ Around (· = o) own a own a' ∧ a'.beg = a.beg := by
  have hn := (List.getElem?_eq_some_iff.1 hx).1
  have hz := h.ok.kind.1
  have hlc := h.ok.lenCap
  have hns : (n : Int) < s.len := by rw [h.len]; exact_mod_cast hn
  cases hb : s.buf with
  | none => have := h.ok.none hb; omega
  | some b =>
    have hm := mul_slot (z := k.size) (t := (n : Int)) (c := s.cap) hz (by omega)
    have hm0 : 0 ≤ k.size * (n : Int) := by positivity
    have hA : Around (· = o) own a own { a with mem := memWrite (b + k.size * (n : Int) + off) e a.mem } := by
      refine ⟨le_refl _, htop, rfl, fun y h1 h2 => ⟨rfl, ?_⟩, fun _ _ _ h => h⟩
      refine memWrite_out ?_
      by_contra hcon
      exact h2 (h.mine b hb y (by omega) (by omega))
    have hfix : Fixed own own a.mem (memWrite (b + k.size * (n : Int) + off) e a.mem) := by
      intro y hy
      have := hA.stays y (by rw [hy]; decide) (by rw [hy]; exact hox.symm)
      exact ⟨this.1.trans hy, this.2⟩
    refine ⟨_, by unfold arrPoke; rw [hb]; dsimp only; rw [if_pos hns], ?_, hA, rfl⟩
    refine ⟨⟨h.ok.kind, h.ok.len0, h.ok.lenCap, h.ok.none, h.ok.cap, h.ok.lo, h.ok.beg, h.ok.stop, h.ok.aligned⟩,
      (by rw [h.len]; simp), h.cap2, h.one, h.mine, ?_⟩
    intro b' hb' i z hz'
    rw [hb] at hb'; cases hb'
    by_cases hi : i = n
    · subst hi
      rw [List.getElem?_set_self hn] at hz'
      cases hz'
      exact hnew _ (h.at_ b hb _ _ hx) hfix
    · rw [List.getElem?_set_ne (Ne.symm hi)] at hz'
      refine hE.move (h.at_ b hb i z hz') hfix fun j g0 g1 => ?_
      refine memWrite_out ?_
      rcases Nat.lt_or_gt_of_ne hi with hlt | hgt
      · have := mul_slot (z := k.size) (t := (i : Int)) (c := (n : Int)) hz (by omega)
        omega
      · have := mul_slot (z := k.size) (t := (n : Int)) (c := (i : Int)) hz (by omega)
        omega

/-! ## The maps -/

/-- The number of nodes on the way along the first links. -/
def ATrie.run : ATrie → Nat
  | .nil => 0
  | .node _ _ c0 _ _ _ => c0.run + 1

def TrieAt (mem : Int → UInt8) (own : Int → Owner) (j : Nat) : Nat → Int → ATrie → Prop
  | _, p, .nil => p = 0
  | d, p, .node k v c0 _ _ _ => 0 < p ∧ p + 56 ≤ 2 ^ 62 ∧ (∀ x, p ≤ x → x < p + 56 → own x = .cell j d) ∧ StrIn mem own (p + 32) k ∧
      readLE mem (p + 48) 2 = v ∧ TrieAt mem own j (d + 1) (readLE mem p 8 : Nat) c0

theorem TrieAt.keep {mem mem' : Int → UInt8} {own own' : Int → Owner} {j : Nat} (hf : Fixed own own' mem mem')
    (hc : ∀ x e, own x = .cell j e → own' x = .cell j e ∧ mem' x = mem x) : ∀ (t : ATrie) (d : Nat) (p : Int), TrieAt mem own j d p t →
    TrieAt mem' own' j d p t := by
  intro t
  induction t with
  | nil => intro d p h; exact h
  | node k v c0 c1 c2 c3 ih _ _ _ =>
    intro d p h
    obtain ⟨h1, h2, h3, h4, h5, h6⟩ := h
    have hm : ∀ i : Int, 0 ≤ i → i < 56 → mem' (p + i) = mem (p + i) := fun i h0 hi => (hc _ _ (h3 _ (by omega) (by omega))).2
    refine ⟨h1, h2, fun x hx hx' => (hc _ _ (h3 x hx hx')).1, h4.moveAt hf hm (by omega) (by omega), ?_, ?_⟩
    · rw [readLE_at hm (by omega) (by omega)]; exact h5
    · rw [readLE_at0 hm (by omega)]; exact ih _ _ h6

/-- A key that is there is found. -/
theorem trieLoop_found {mem : Int → UInt8} {own : Int → Owner} {j : Nat} {key : Str} {fresh v : Nat} : ∀ (t t' : ATrie) (f d : Nat) (p : Int)
    (hash : UInt64) (link : MLink), TrieAt mem own j d p t → t.run < f → t.insert autoSlot key fresh hash = (some v, t') →
    memTrieLoop mem key f hash p link = .ok (.inl v) ∧ v < 65536 := by
  intro t
  induction t with
  | nil => intro t' f d p hash link h hf hi; simp [ATrie.insert] at hi
  | node k w c0 c1 c2 c3 ih _ _ _ =>
    intro t' f d p hash link h hf hi
    obtain ⟨h1, h2, h3, h4, h5, h6⟩ := h
    obtain ⟨f, rfl⟩ : ∃ g, f = g + 1 := ⟨f - 1, by omega⟩
    simp only [memTrieLoop]
    rw [if_neg (by omega), h4.read]
    simp only [ATrie.insert, autoSlot_zero] at hi
    by_cases he : strEq key k = true
    · rw [if_pos he] at hi ⊢
      injection hi with hi _
      injection hi with hi
      rw [h5, hi]
      exact ⟨rfl, by rw [← hi, ← h5]; exact readLE_lt mem 2 _⟩
    · rw [if_neg he] at hi ⊢
      rw [autoOffset_eq_zero]
      simp only [ATrie.run] at hf
      rw [show p + ((0 : Nat) : Int) = p by omega]
      refine ih (c0.insert autoSlot key fresh (hash <<< 2)).2 f _ _ _ _ h6 (by omega) ?_
      injection hi with hi _
      exact Prod.ext hi rfl

/-- The new node of an insertion. -/
structure NewCell (mem : Int → UInt8) (own : Int → Owner) (j d : Nat) (q : Int) (key : Str) (v : Nat) : Prop where
  pos : 0 < q
  top : q + 56 ≤ 2 ^ 62
  mine : ∀ x, q ≤ x → x < q + 56 → own x = .cell j d
  key : StrIn mem own (q + 32) key
  val : readLE mem (q + 48) 2 = v
  link : readLE mem q 8 = 0

theorem NewCell.at_ {mem : Int → UInt8} {own : Int → Owner} {j d : Nat} {q : Int} {key : Str} {v : Nat} (h : NewCell mem own j d q key v) :
    TrieAt mem own j d q (.node key v .nil .nil .nil .nil) :=
  ⟨h.pos, h.top, h.mine, h.key, h.val, by rw [h.link]; rfl⟩

/-- Where the link to write is, and what writing it does. -/
def LinkSpec (mem : Int → UInt8) (own : Int → Owner) (j d : Nat) (p : Int) (t t' : ATrie) (key : Str) (fresh : Nat) (link link' : MLink) : Prop :=
  (t.run = 0 ∧ link' = link ∧ ∀ mem' own' q, NewCell mem' own' j d q key fresh → TrieAt mem' own' j d q t') ∨
  (0 < t.run ∧ ∃ l, link' = .child l ∧ (∀ x, l ≤ x → x < l + 8 → own x = .cell j (d + t.run - 1)) ∧
    ∀ mem' own' q, NewCell mem' own' j (d + t.run) q key fresh → Fixed own own' mem mem' →
      (∀ x e, own x = .cell j e → (own' x = .cell j e ∧ ((x < l ∨ l + 8 ≤ x) → mem' x = mem x))) → readLE mem' l 8 = q.toNat →
      TrieAt mem' own' j d p t')

theorem trieLoop_new {mem : Int → UInt8} {own : Int → Owner} {j : Nat} {key : Str} {fresh : Nat} : ∀ (t t' : ATrie) (f d : Nat) (p : Int)
    (hash : UInt64) (link : MLink), TrieAt mem own j d p t → t.run < f → t.insert autoSlot key fresh hash = (none, t') →
    t'.run = t.run + 1 ∧
    ∃ link', memTrieLoop mem key f hash p link = .ok (.inr link') ∧ LinkSpec mem own j d p t t' key fresh link link' := by
  intro t
  induction t with
  | nil =>
    intro t' f d p hash link h hf hi
    obtain ⟨f, rfl⟩ : ∃ g, f = g + 1 := ⟨f - 1, by omega⟩
    simp only [ATrie.insert, Prod.mk.injEq, true_and] at hi
    subst hi
    refine ⟨rfl, link, ?_, Or.inl ⟨rfl, rfl, fun mem' own' q hq => hq.at_⟩⟩
    have h : p = 0 := h
    simp only [memTrieLoop]; rw [if_pos h]
  | node k w c0 c1 c2 c3 ih _ _ _ =>
    intro t' f d p hash link h hf hi
    obtain ⟨h1, h2, h3, h4, h5, h6⟩ := h
    obtain ⟨f, rfl⟩ : ∃ g, f = g + 1 := ⟨f - 1, by omega⟩
    simp only [memTrieLoop]
    rw [if_neg (by omega), h4.read]
    simp only [ATrie.insert, autoSlot_zero] at hi
    by_cases he : strEq key k = true
    · rw [if_pos he] at hi; cases hi
    · rw [if_neg he] at hi ⊢
      rw [autoOffset_eq_zero]
      simp only [ATrie.run] at hf
      rw [show p + ((0 : Nat) : Int) = p by omega]
      injection hi with hi1 hi2
      obtain ⟨g1, link', g2, g3⟩ := ih (c0.insert autoSlot key fresh (hash <<< 2)).2 f _ _ (hash <<< 2) (.child p) h6 (by omega) (Prod.ext hi1 rfl)
      subst hi2
      refine ⟨by simp only [ATrie.run]; omega, link', g2, Or.inr ⟨by simp [ATrie.run], ?_⟩⟩
      rcases g3 with ⟨r0, rfl, r2⟩ | ⟨r0, l, rfl, r1, r2⟩
      · refine ⟨p, rfl, fun x hx hx' => ?_, ?_⟩
        · rw [h3 x hx (by omega)]; simp [ATrie.run, r0]
        · intro mem' own' q hq hf hc hl
          simp only [ATrie.run, r0] at hq
          have hm : ∀ i : Int, 8 ≤ i → i < 56 → mem' (p + i) = mem (p + i) := fun i h0 hi =>
            (hc _ _ (h3 _ (by omega) (by omega))).2 (by omega)
          refine ⟨h1, h2, fun x hx hx' => (hc _ _ (h3 x hx hx')).1, ?_, ?_, ?_⟩
          · refine h4.move hf fun i h0 hi => ?_
            have := hm (32 + i) (by omega) (by omega)
            rw [← Int.add_assoc] at this; exact this
          · rw [← h5]
            refine readLE_congr fun i h0 hi => ?_
            have := hm (48 + i) (by omega) (by omega)
            rw [← Int.add_assoc] at this; exact this
          · rw [hl]
            have := hq.pos
            rw [Int.toNat_of_nonneg (by omega)]
            exact r2 mem' own' q hq
      · refine ⟨l, rfl, fun x hx hx' => ?_, ?_⟩
        · rw [r1 x hx hx']; congr 1; simp only [ATrie.run]; omega
        · intro mem' own' q hq hf hc hl
          simp only [ATrie.run] at hq
          rw [show d + (c0.run + 1) = d + 1 + c0.run by omega] at hq
          have hout : ∀ x, p ≤ x → x < p + 56 → x < l ∨ l + 8 ≤ x := by
            intro x hx hx'
            by_contra hcon
            have e1 := h3 x hx hx'
            rw [r1 x (by omega) (by omega)] at e1
            injection e1 with _ e1
            omega
          have hm : ∀ i : Int, 0 ≤ i → i < 56 → mem' (p + i) = mem (p + i) := fun i h0 hi =>
            (hc _ _ (h3 _ (by omega) (by omega))).2 (hout _ (by omega) (by omega))
          refine ⟨h1, h2, fun x hx hx' => (hc _ _ (h3 x hx hx')).1, h4.moveAt hf hm (by omega) (by omega), ?_, ?_⟩
          · rw [readLE_at hm (by omega) (by omega)]; exact h5
          · rw [readLE_at0 hm (by omega)]; exact r2 mem' own' q hq hf hc hl

structure MapRep (own : Int → Owner) (j : Nat) (mem : Int → UInt8) (m : MMap) (am : AutoMap) : Prop where
  ident : m.identity = am.identity
  most : am.identity ≤ 65535
  run : am.root.run ≤ am.identity
  trie : TrieAt mem own j 0 m.root am.root

theorem MapRep.other {own own' : Int → Owner} {j : Nat} {a a' : Arena} {m : MMap} {am : AutoMap} {O : Owner → Prop}
    (h : MapRep own j a.mem m am) (hA : Around O own a own' a') (hc : ∀ e, ¬O (.cell j e)) (hf : ¬O .fixed) : MapRep own' j a'.mem m am := by
  refine ⟨h.ident, h.most, h.run, TrieAt.keep (fun x hx => ?_) (fun x e hx => ?_) _ _ _ h.trie⟩
  · have := hA.stays x (by rw [hx]; decide) (by rw [hx]; exact hf)
    exact ⟨this.1.trans hx, this.2⟩
  · have := hA.stays x (by rw [hx]; simp) (by rw [hx]; exact hc e)
    exact ⟨this.1.trans hx, this.2⟩

/-- The owners of a map's nodes. -/
def IsCell (j : Nat) (o : Owner) : Prop := ∃ e, o = .cell j e

theorem isAlign_8 : IsAlign 8 := ⟨3, by omega, rfl⟩

theorem strIn_write {mem : Int → UInt8} {own : Int → Owner} {p q : Int} {pre post : List UInt8} {r : MStr} {s : Str} (hp : 0 ≤ r.ptr)
    (hp' : r.ptr < 2 ^ 64) (hl : r.len = s.length) (hl' : r.len < 2 ^ 64) (hq : q = p + pre.length)
    (hs : StrAt (memWrite p (pre ++ (encStr r ++ post)) mem) own r.ptr s) : StrIn (memWrite p (pre ++ (encStr r ++ post)) mem) own q s := by
  unfold encStr at hs ⊢
  have e8 := leBytes_length 8 r.ptr.toNat
  refine ⟨?_, ?_⟩
  · have := readLE_write (m := mem) (p := p) (pre := pre ++ leBytes 8 r.ptr.toNat) (post := post) (n := 8) (v := r.len) (by omega)
      (q := q + 8) (by rw [hq, List.length_append, e8]; push_cast; omega)
    simp only [List.append_assoc] at this ⊢
    rw [this, hl]
  · have := readLE_write (m := mem) (p := p) (pre := pre) (post := leBytes 8 r.len ++ post) (n := 8) (v := r.ptr.toNat) (by omega)
      (q := q) hq
    simp only [List.append_assoc] at this hs ⊢
    rw [this, Int.toNat_of_nonneg hp]
    exact hs

theorem insertMap_rep {own : Int → Owner} {j : Nat} {a : Arena} {m : MMap} {am : AutoMap} {key : MStr} {k : Str} (h : MapRep own j a.mem m am)
    (h0 : 0 < a.beg) (htop : a.beg ≤ a.stop) (hst : a.stop < 2 ^ 62) (hfree : ∀ y, a.beg ≤ y → y < a.stop → own y = .free)
    (hkl : key.len = k.length) (hk0 : 0 ≤ key.ptr) (hk1 : key.ptr < 2 ^ 64 ∧ key.len < 2 ^ 64) (hkm : StrAt a.mem own key.ptr k) {r : Inserted}
    (hr : am.insert k = .ok r) :
    r.map.identity = am.identity + (if r.wasInserted then 1 else 0) ∧ r.entryIndex < 65536 ∧
    ((memInsertMap key m a = .longjmp ∧ r.wasInserted = true ∧ a.stop < a.beg + 64) ∨
    ∃ own' r', memInsertMap key m a = .ok r' ∧ r'.wasInserted = r.wasInserted ∧ r'.entryIndex = r.entryIndex ∧
      MapRep own' j r'.arena.mem r'.map r.map ∧ Around (IsCell j) own a own' r'.arena ∧
      r'.arena.beg ≤ a.beg + (if r.wasInserted then 63 else 0)) := by
  have hread : key.read a.mem = k := MStr.read_eq hkl fun i c hc => (hkm i c hc).2
  unfold AutoMap.insert at hr
  unfold memInsertMap
  rw [hread, h.ident]
  rcases hi : am.root.insert autoSlot k (am.identity + 1) (hashDjb2 k) with ⟨o, t⟩
  rw [hi] at hr
  have hrun : am.root.run < am.identity + 1 := by have := h.run; omega
  cases o with
  | some v =>
    dsimp only at hr
    cases hr
    obtain ⟨hl, hv⟩ := trieLoop_found _ _ (am.identity + 1) _ _ _ .root h.trie hrun hi
    dsimp only
    refine ⟨by simp, hv, Or.inr ⟨own, ⟨false, v, m, a⟩, ?_, rfl, rfl, h, ?_, by simp⟩⟩
    · rw [hl]; rfl
    · exact ⟨le_refl _, htop, rfl, fun _ _ _ => ⟨rfl, rfl⟩, fun _ _ _ h => h⟩
  | none =>
    dsimp only at hr
    split at hr
    · cases hr
    · next hid =>
      cases hr
      obtain ⟨g1, link, g2, g3⟩ := trieLoop_new _ _ (am.identity + 1) _ _ _ .root h.trie hrun hi
      dsimp only
      have hid' : am.identity + 1 < 65536 := by have := h.most; omega
      refine ⟨by simp, hid', ?_⟩
      rw [g2]
      simp only [Out.bind_ok]
      rw [if_neg hid]
      rcases alloc_post (size := 56) (align := 8) (count := 1) (zero := true) (a := a) (by omega) isAlign_8 (by omega) with
        hj | ⟨p, a', he, hA⟩
      · left
        have := (alloc_noJump (by omega) isAlign_8 (by omega) hj).2
        exact ⟨by rw [hj]; rfl, by simp, by omega⟩
      · right
        have hbeg := hA.beg
        have hab := hA.above
        have hcl := hA.close
        have hs' := hA.stop
        have hfit := hA.fits (by omega)
        have hblw := hA.below
        have hout := hA.outside
        have hzero := hA.zeroed rfl
        rw [he]
        simp only [Out.bind_ok]
        generalize hM1 : linkWrite link p a'.mem = m1
        generalize hM2 : memWrite (p + 32) (encStr key) m1 = m2
        generalize hM3 : memWrite (p + 48) (leBytes 2 (am.identity + 1)) m2 = m3
        have hel : (encStr key).length = 16 := by unfold encStr; simp [leBytes_length]
        have hvl : (leBytes 2 (am.identity + 1)).length = 2 := leBytes_length _ _
        -- the link is in memory of this map
        have hlk : ∀ x, own x ≠ .free → ¬IsCell j (own x) → m1 x = a'.mem x := by
          intro x hx1 hx2
          rw [← hM1]
          cases hL : link with
          | root => rfl
          | child l =>
            rcases g3 with ⟨_, e, _⟩ | ⟨_, l', e, r1, _⟩
            · rw [hL] at e; cases e
            · rw [hL] at e; cases e
              show memWrite _ _ _ _ = _
              refine memWrite_out ?_
              rw [leBytes_length]
              by_contra hcon
              exact hx2 ⟨_, r1 x (by omega) (by push_cast at hcon; omega)⟩
        have hin : ∀ x, own x ≠ .free → x < a.beg ∨ a.stop ≤ x := by
          intro x hx
          by_contra hcon
          exact hx (hfree x (by omega) (by omega))
        have hm31 : ∀ x, x < p ∨ p + 56 ≤ x → m3 x = m1 x := by
          intro x hx
          rw [← hM3, memWrite_out (by rw [hvl]; push_cast; omega), ← hM2, memWrite_out (by rw [hel]; push_cast; omega)]
        have ha' : ∀ x, own x ≠ .free → a'.mem x = a.mem x := by
          intro x hx
          rcases hin x hx with h1 | h1
          · exact hblw x (by omega)
          · exact hout x (by omega)
        have hstay : ∀ x, own x ≠ .free → ¬IsCell j (own x) → m3 x = a.mem x := by
          intro x hx1 hx2
          rw [hm31 x (by have := hin x hx1; omega), hlk x hx1 hx2, ha' x hx1]
        have hFix : Fixed own (ownBlk own (.cell j am.root.run) p 56) a.mem m3 := by
          intro x hx
          have hx1 : own x ≠ .free := by rw [hx]; decide
          refine ⟨?_, hstay x hx1 (by rw [hx]; rintro ⟨e, he⟩; cases he)⟩
          unfold ownBlk
          rw [if_neg (by have := hin x hx1; omega), hx]
        have hnewm : ∀ x, p ≤ x → x < p + 8 → m3 x = 0 := by
          intro x hx hx'
          rw [← hM3, memWrite_out (by omega), ← hM2, memWrite_out (by omega), ← hM1]
          have hz : a'.mem x = 0 := hzero x hx (by omega)
          cases hL : link with
          | root => exact hz
          | child l =>
            rcases g3 with ⟨_, e, _⟩ | ⟨_, l', e, r1, _⟩
            · rw [hL] at e; cases e
            · rw [hL] at e; cases e
              show memWrite _ _ _ _ = _
              rw [memWrite_out ?_]
              · exact hz
              · rw [leBytes_length]
                by_contra hcon
                have := r1 x (by omega) (by push_cast at hcon; omega)
                rw [hfree x (by omega) (by omega)] at this
                cases this
        have hcell : NewCell m3 (ownBlk own (.cell j am.root.run) p 56) j am.root.run p k (am.identity + 1) := by
          refine ⟨by omega, by omega, ?_, ?_, ?_, ?_⟩
          · intro x hx hx'; unfold ownBlk; rw [if_pos ⟨hx, hx'⟩]
          · have hs3 : StrAt m3 (ownBlk own (.cell j am.root.run) p 56) key.ptr k := hkm.keep hFix
            have hs2 : StrIn m2 (ownBlk own (.cell j am.root.run) p 56) (p + 32) k := by
              have := strIn_write (mem := m1) (own := ownBlk own (.cell j am.root.run) p 56) (p := p + 32) (q := p + 32) (pre := [])
                (post := []) (r := key) (s := k) hk0 hk1.1 hkl hk1.2 (by simp) (by
                  rw [List.nil_append, List.append_nil, hM2]
                  intro i c hc
                  refine ⟨(hs3 i c hc).1, ?_⟩
                  rw [← (hs3 i c hc).2, ← hM3, memWrite_out]
                  have := (hkm i c hc).1
                  have := hin (key.ptr + (i : Int)) (by rw [this]; decide)
                  rw [hvl]; push_cast; omega)
              rw [List.nil_append, List.append_nil, hM2] at this
              exact this
            refine ⟨?_, ?_⟩
            · rw [← hs2.1, ← hM3]; exact readLE_other (by omega)
            · have : readLE m3 (p + 32) 8 = readLE m2 (p + 32) 8 := by rw [← hM3]; exact readLE_other (by omega)
              rw [this]
              intro i c hc
              have h1 := hs2.2 i c hc
              refine ⟨h1.1, ?_⟩
              rw [← h1.2, ← hM3, memWrite_out]
              have h3 := h1.1
              rw [hvl]
              by_contra hcon
              push_cast at hcon
              unfold ownBlk at h3
              rw [if_pos (by omega)] at h3
              cases h3
          · rw [← hM3]
            have := readLE_write (m := m2) (p := p + 48) (q := p + 48) (pre := []) (post := []) (n := 2) (v := am.identity + 1) (by omega) (by simp)
            rw [List.nil_append, List.append_nil] at this
            exact this
          · refine readLE_bytes (by omega) fun i hi => ?_
            rw [hnewm _ (by omega) (by omega)]
            have : ∀ i < 8, (leBytes 8 0).getD i 0 = 0 := by decide
            exact (this i hi).symm
        have hAr : Around (IsCell j) own a (ownBlk own (.cell j am.root.run) p 56) { a' with mem := m3 } := by
          refine ⟨by dsimp only; omega, by dsimp only; omega, hs', ?_, ?_⟩
          · intro x hx1 hx2
            refine ⟨?_, hstay x hx1 hx2⟩
            unfold ownBlk
            rw [if_neg (by have := hin x hx1; omega)]
          · intro x h1 h2 h3
            dsimp only at h1
            unfold ownBlk; rw [if_neg (by omega), h3]
        refine ⟨ownBlk own (.cell j am.root.run) p 56, _, rfl, rfl, rfl, ⟨rfl, by dsimp only; omega, by dsimp only; have := h.run; omega, ?_⟩, hAr, by simp; omega⟩
        rcases g3 with ⟨z0, rfl, z1⟩ | ⟨z0, l, rfl, r1, r2⟩
        · rw [z0] at hcell ⊢
          exact z1 _ _ _ hcell
        · refine r2 _ _ _ (by rw [Nat.zero_add]; exact hcell) hFix ?_ ?_
          · intro x e hx
            have hx1 : own x ≠ .free := by rw [hx]; simp
            refine ⟨?_, fun hl => ?_⟩
            · unfold ownBlk
              rw [if_neg (by have := hin x hx1; omega), hx]
            · show m3 x = a.mem x
              rw [hm31 x (by have := hin x hx1; omega), ← hM1]
              show memWrite _ _ _ _ = _
              rw [memWrite_out (by rw [leBytes_length]; exact hl), ha' x hx1]
          · have hlout : l + 8 ≤ p ∨ p + 56 ≤ l := by
              by_contra hcon
              have h1 : ∃ x, l ≤ x ∧ x < l + 8 ∧ p ≤ x ∧ x < p + 56 := ⟨max l p, by omega⟩
              obtain ⟨x, x1, x2, x3, x4⟩ := h1
              have := r1 x x1 x2
              rw [hfree x (by omega) (by omega)] at this
              cases this
            have e1 : readLE m3 l 8 = readLE m1 l 8 := readLE_congr fun i h0 hi => hm31 _ (by omega)
            rw [e1, ← hM1]
            have := readLE_write (m := a'.mem) (p := l) (q := l) (pre := []) (post := []) (n := 8) (v := p.toNat) (by omega) (by simp)
            rw [List.nil_append, List.append_nil] at this
            exact this

end Flo
