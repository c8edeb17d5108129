import Verif.Spec.Buddy
import Verif.Proofs.Pool
/-!
# Buddy allocator: the blocks tile the memory
-/
namespace Flo
open Spec

structure Blk where
  addr : Int
  size : Nat
  free : Bool
  deriving DecidableEq

def Pow2 (n : Nat) : Prop := ∃ k : Nat, 5 ≤ k ∧ n = 2 ^ k

/-- The header of a block in memory. -/
def Hdr (mem : Int → UInt8) (b : Blk) : Prop := bSize mem b.addr = b.size ∧ bFree mem b.addr = b.free

/-- The blocks `bs` cover the addresses from `h` to `t` without gaps. -/
def Tiled (mem : Int → UInt8) (t : Int) : Int → List Blk → Prop
  | h, [] => h = t
  | h, b :: bs => b.addr = h ∧ Hdr mem b ∧ Pow2 b.size ∧ Tiled mem t (h + b.size) bs

theorem Pow2.ge {n : Nat} (h : Pow2 n) : 32 ≤ n := by
  obtain ⟨k, hk, rfl⟩ := h
  calc 32 = 2 ^ 5 := rfl
    _ ≤ 2 ^ k := Nat.pow_le_pow_right (by omega) hk

theorem Pow2.double {n : Nat} (h : Pow2 n) : Pow2 (n * 2) := by
  obtain ⟨k, hk, rfl⟩ := h
  exact ⟨k + 1, by omega, by ring⟩

theorem Pow2.half {n : Nat} (h : Pow2 n) (hn : 32 < n) : Pow2 (n / 2) ∧ n / 2 + n / 2 = n := by
  obtain ⟨k, hk, rfl⟩ := h
  have : k ≠ 5 := by rintro rfl; norm_num at hn
  obtain ⟨j, rfl⟩ : ∃ j, k = j + 1 := ⟨k - 1, by omega⟩
  have e : 2 ^ (j + 1) / 2 = 2 ^ j := by rw [pow_succ]; omega
  rw [e]
  exact ⟨⟨j, by omega, rfl⟩, by ring⟩

theorem Pow2.dvd {n : Nat} (h : Pow2 n) : (32 : Int) ∣ n := by
  obtain ⟨k, hk, rfl⟩ := h
  obtain ⟨j, rfl⟩ : ∃ j, k = 5 + j := ⟨k - 5, by omega⟩
  refine ⟨2 ^ j, ?_⟩
  push_cast
  rw [pow_add]; norm_num

theorem Hdr.congr {m m' : Int → UInt8} {b : Blk} (h : Hdr m b) (hm : ∀ x, b.addr ≤ x → x < b.addr + 9 → m' x = m x) :
    Hdr m' b := by
  refine ⟨?_, ?_⟩
  · unfold bSize; rw [load64_congr (m := m') (m' := m) fun x h1 h2 => hm x h1 (by omega)]; exact h.1
  · unfold bFree; rw [hm _ (by omega) (by omega)]; exact h.2

theorem Tiled.congr {m m' : Int → UInt8} {t : Int} : ∀ {bs : List Blk} {h : Int}, Tiled m t h bs →
    (∀ b ∈ bs, ∀ x, b.addr ≤ x → x < b.addr + 9 → m' x = m x) → Tiled m' t h bs
  | [], _, hT, _ => hT
  | b :: bs, h, ⟨h1, h2, h3, h4⟩, hm =>
    ⟨h1, h2.congr (hm b (by simp)), h3, Tiled.congr h4 fun c hc => hm c (by simp [hc])⟩

theorem Tiled.append {m : Int → UInt8} {t : Int} : ∀ {xs ys : List Blk} {h : Int},
    Tiled m t h (xs ++ ys) ↔ ∃ k, Tiled m k h xs ∧ Tiled m t k ys
  | [], ys, h => by simp [Tiled]
  | x :: xs, ys, h => by
    simp only [List.cons_append, Tiled, Tiled.append]
    constructor
    · rintro ⟨h1, h2, h3, k, h4, h5⟩; exact ⟨k, ⟨h1, h2, h3, h4⟩, h5⟩
    · rintro ⟨k, ⟨h1, h2, h3, h4⟩, h5⟩; exact ⟨h1, h2, h3, k, h4, h5⟩

theorem Tiled.le {m : Int → UInt8} {t : Int} : ∀ {bs : List Blk} {h : Int}, Tiled m t h bs → h + 32 * bs.length ≤ t
  | [], _, hT => by simp [Tiled] at hT; simp; omega
  | b :: bs, h, ⟨_, _, h3, h4⟩ => by
    have := h4.le
    have := h3.ge
    simp; omega

theorem Tiled.bounds {m : Int → UInt8} {t : Int} : ∀ {bs : List Blk} {h : Int}, Tiled m t h bs → ∀ b ∈ bs,
    h ≤ b.addr ∧ b.addr + b.size ≤ t ∧ Pow2 b.size ∧ Hdr m b ∧ (32 : Int) ∣ b.addr - h
  | [], _, _, b, hb => by simp at hb
  | c :: bs, h, ⟨h1, h2, h3, h4⟩, b, hb => by
    have hle := h4.le
    rcases List.mem_cons.1 hb with rfl | hb
    · refine ⟨by omega, by omega, h3, h2, by rw [h1]; simp⟩
    · obtain ⟨g1, g2, g3, g4, g5⟩ := h4.bounds b hb
      refine ⟨by omega, g2, g3, g4, ?_⟩
      have := Int.dvd_add g5 h3.dvd
      have e : b.addr - (h + c.size) + c.size = b.addr - h := by ring
      rwa [e] at this

theorem Tiled.apart {m : Int → UInt8} {t : Int} : ∀ {bs : List Blk} {h : Int}, Tiled m t h bs → ∀ b ∈ bs, ∀ c ∈ bs, b ≠ c →
    b.addr + b.size ≤ c.addr ∨ c.addr + c.size ≤ b.addr
  | [], _, _, b, hb, _, _, _ => by simp at hb
  | d :: bs, h, ⟨h1, h2, h3, h4⟩, b, hb, c, hc, hne => by
    rcases List.mem_cons.1 hb with e | hb
    · rcases List.mem_cons.1 hc with e' | hc
      · exact absurd (e.trans e'.symm) hne
      · have := (h4.bounds c hc).1
        rw [e]; left; omega
    · rcases List.mem_cons.1 hc with e' | hc
      · have := (h4.bounds b hb).1
        rw [e']; right; omega
      · exact h4.apart b hb c hc hne

/-- Used blocks are the same before and after, and their bytes too. -/
structure Same (m : Int → UInt8) (bs : List Blk) (m' : Int → UInt8) (bs' : List Blk) : Prop where
  keep : ∀ b ∈ bs, b.free = false → b ∈ bs'
  only : ∀ b ∈ bs', b.free = false → b ∈ bs
  mem : ∀ b ∈ bs, b.free = false → ∀ x, b.addr ≤ x → x < b.addr + b.size → m' x = m x

theorem Same.refl (m : Int → UInt8) (bs : List Blk) : Same m bs m bs := ⟨fun _ h _ => h, fun _ h _ => h, fun _ _ _ _ _ _ => rfl⟩

theorem Same.trans {m m' m'' : Int → UInt8} {bs bs' bs'' : List Blk} (h : Same m bs m' bs') (h' : Same m' bs' m'' bs'') :
    Same m bs m'' bs'' :=
  ⟨fun b hb hf => h'.keep b (h.keep b hb hf) hf, fun b hb hf => h.only b (h'.only b hb hf) hf,
    fun b hb hf x h1 h2 => (h'.mem b (h.keep b hb hf) hf x h1 h2).trans (h.mem b hb hf x h1 h2)⟩

/-- Free blocks are only merged. -/
structure Grown (m : Int → UInt8) (bs : List Blk) (m' : Int → UInt8) (bs' : List Blk) : Prop extends Same m bs m' bs' where
  cover : ∀ b ∈ bs, b.free = true → ∃ b' ∈ bs', b'.free = true ∧ b'.addr ≤ b.addr ∧ b.addr + b.size ≤ b'.addr + b'.size

theorem Grown.refl (m : Int → UInt8) (bs : List Blk) : Grown m bs m bs :=
  ⟨Same.refl _ _, fun b hb hf => ⟨b, hb, hf, le_refl _, le_refl _⟩⟩

theorem Grown.trans {m m' m'' : Int → UInt8} {bs bs' bs'' : List Blk} (h : Grown m bs m' bs') (h' : Grown m' bs' m'' bs'') :
    Grown m bs m'' bs'' := by
  refine ⟨h.toSame.trans h'.toSame, fun b hb hf => ?_⟩
  obtain ⟨b1, h1, h2, h3, h4⟩ := h.cover b hb hf
  obtain ⟨b2, g1, g2, g3, g4⟩ := h'.cover b1 h1 h2
  exact ⟨b2, g1, g2, by omega, by omega⟩

theorem setSize_other {p : Int} {n : Nat} {mem : Int → UInt8} {x : Int} (h : x < p ∨ p + 8 ≤ x) : setSize p n mem x = mem x :=
  store64_other h

theorem setFree_other {p : Int} {f : Bool} {mem : Int → UInt8} {x : Int} (h : x ≠ p + 8) : setFree p f mem x = mem x := by
  unfold setFree memWrite
  rw [if_neg (by simp only [List.length_cons, List.length_nil]; omega)]

theorem setSize_read {p : Int} {n : Nat} {mem : Int → UInt8} (hn : n < 2 ^ 64) : bSize (setSize p n mem) p = n :=
  load64_store64 hn

theorem setFree_read {p : Int} {f : Bool} {mem : Int → UInt8} : bFree (setFree p f mem) p = f := by
  unfold bFree setFree memWrite
  rw [if_pos (by simp only [List.length_cons, List.length_nil]; omega)]
  have : (p + 8 - (p + 8)).toNat = 0 := by omega
  rw [this]
  cases f <;> rfl

theorem setSize_free {p : Int} {n : Nat} {mem : Int → UInt8} : bFree (setSize p n mem) p = bFree mem p := by
  unfold bFree; rw [setSize_other (by omega)]

theorem setFree_size {p : Int} {f : Bool} {mem : Int → UInt8} : bSize (setFree p f mem) p = bSize mem p := by
  unfold bSize
  exact load64_congr fun x h1 h2 => setFree_other (by omega)

/-! ## Reads and writes stay inside -/

theorem mix_self (h t : Int) (m : Int → UInt8) : mix h t m m = m := by
  funext x; unfold mix; split <;> rfl

theorem bSize_mix {h t p : Int} {m o : Int → UInt8} (h1 : h ≤ p) (h2 : p + 8 ≤ t) : bSize (mix h t m o) p = bSize m p := by
  unfold bSize
  refine load64_congr fun x g1 g2 => ?_
  unfold mix
  rw [if_pos (by omega)]

theorem bFree_mix {h t p : Int} {m o : Int → UInt8} (h1 : h ≤ p) (h2 : p + 9 ≤ t) : bFree (mix h t m o) p = bFree m p := by
  unfold bFree mix
  rw [if_pos (by omega)]

theorem nextBuddy_mix {h t p : Int} {m o : Int → UInt8} (h1 : h ≤ p) (h2 : p + 8 ≤ t) :
    nextBuddy (mix h t m o) p = nextBuddy m p := by
  unfold nextBuddy; rw [bSize_mix h1 h2]

theorem memWrite_mix {h t p : Int} {m o : Int → UInt8} {bs : List UInt8} (h1 : h ≤ p) (h2 : p + bs.length ≤ t) :
    memWrite p bs (mix h t m o) = mix h t (memWrite p bs m) o := by
  funext x
  unfold memWrite mix
  by_cases g : p ≤ x ∧ x < p + bs.length
  · rw [if_pos g, if_pos (by omega)]; dsimp only; rw [if_pos g]
  · rw [if_neg g]
    by_cases g' : h ≤ x ∧ x < t
    · rw [if_pos g', if_pos g']; dsimp only; rw [if_neg g]
    · rw [if_neg g', if_neg g']

theorem memZero_mix {h t p n : Int} {m o : Int → UInt8} (h1 : h ≤ p) (h2 : p + n ≤ t) :
    memZero p n (mix h t m o) = mix h t (memZero p n m) o := by
  funext x
  unfold memZero mix
  by_cases g : p ≤ x ∧ x < p + n
  · rw [if_pos g, if_pos (by omega)]; dsimp only; rw [if_pos g]
  · rw [if_neg g]
    by_cases g' : h ≤ x ∧ x < t
    · rw [if_pos g', if_pos g']; dsimp only; rw [if_neg g]
    · rw [if_neg g', if_neg g']

theorem setSize_mix {h t p : Int} {n : Nat} {m o : Int → UInt8} (h1 : h ≤ p) (h2 : p + 8 ≤ t) :
    setSize p n (mix h t m o) = mix h t (setSize p n m) o := memWrite_mix h1 (by simpa [le64] using h2)

theorem setFree_mix {h t p : Int} {f : Bool} {m o : Int → UInt8} (h1 : h ≤ p) (h2 : p + 9 ≤ t) :
    setFree p f (mix h t m o) = mix h t (setFree p f m) o :=
  memWrite_mix (by omega) (by simp only [List.length_cons, List.length_nil]; omega)

/-- `f` run on memory `m` yields `r` and memory `m'`, without reading or writing outside `[h, t)`. -/
structure Runs {α : Type} (h t : Int) (f : (Int → UInt8) → Out (α × (Int → UInt8))) (m : Int → UInt8) (r : α) (m' : Int → UInt8) :
    Prop where
  run : ∀ o, f (mix h t m o) = .ok (r, mix h t m' o)
  out : ∀ x, x < h ∨ t ≤ x → m' x = m x

theorem mix_out {h t : Int} {m m' : Int → UInt8} (ho : ∀ x, x < h ∨ t ≤ x → m' x = m x) : mix h t m' m = m' := by
  funext x
  unfold mix
  by_cases g : h ≤ x ∧ x < t
  · rw [if_pos g]
  · rw [if_neg g, ho x (by omega)]

theorem Runs.plain {α : Type} {h t : Int} {f : (Int → UInt8) → Out (α × (Int → UInt8))} {m m' : Int → UInt8} {r : α}
    (hr : Runs h t f m r m') : f m = .ok (r, m') := by
  have := hr.run m
  rwa [mix_self, mix_out hr.out] at this

/-! ## Splitting -/

theorem split_step {mem : Int → UInt8} {h t a : Int} {n : Nat} {pre post : List Blk} (hT : Tiled mem t h (pre ++ ⟨a, n, true⟩ :: post))
    (hlt : t - h < 2 ^ 63) (hn : 32 < n) :
    let m3 := setFree (a + (n / 2 : Nat)) true (setSize (a + (n / 2 : Nat)) (n / 2) (setSize a (n / 2) mem))
    nextBuddy (setSize a (n / 2) mem) a = a + (n / 2 : Nat) ∧
    Tiled m3 t h ((pre ++ [⟨a, n / 2, true⟩]) ++ ⟨a + (n / 2 : Nat), n / 2, true⟩ :: post) ∧
    Same mem (pre ++ ⟨a, n, true⟩ :: post) m3 ((pre ++ [⟨a, n / 2, true⟩]) ++ ⟨a + (n / 2 : Nat), n / 2, true⟩ :: post) ∧
    (∀ x, x < h ∨ t ≤ x → m3 x = mem x) := by
  intro m3
  have hin : (⟨a, n, true⟩ : Blk) ∈ pre ++ ⟨a, n, true⟩ :: post := by simp
  obtain ⟨hb1, hb2, hp, hh, _⟩ := hT.bounds _ hin
  dsimp only at hb1 hb2 hp
  obtain ⟨hp2, he⟩ := hp.half hn
  have hge := hp2.ge
  have hnlt : n / 2 < 2 ^ 64 := by omega
  have hsz : bSize (setSize a (n / 2) mem) a = n / 2 := setSize_read hnlt
  have hm3 : ∀ x, x < a ∨ a + n ≤ x → m3 x = mem x := by
    intro x hx
    show setFree _ _ _ x = _
    rw [setFree_other (by omega), setSize_other (by omega), setSize_other (by omega)]
  have hother : ∀ b ∈ pre ++ ⟨a, n, true⟩ :: post, b ≠ ⟨a, n, true⟩ → ∀ x, b.addr ≤ x → x < b.addr + b.size → m3 x = mem x := by
    intro b hb hne x h1 h2
    have := hT.apart b hb _ hin hne
    dsimp only at this
    exact hm3 x (by omega)
  refine ⟨by unfold nextBuddy; rw [hsz], ?_, ⟨?_, ?_, ?_⟩, fun x hx => hm3 x (by omega)⟩
  · obtain ⟨k, hT1, hT2⟩ := Tiled.append.1 hT
    obtain ⟨g1, g2, g3, g4⟩ := hT2
    dsimp only at g1
    subst g1
    rw [List.append_assoc]
    refine Tiled.append.2 ⟨a, hT1.congr ?_, ?_⟩
    · intro b hb x h1 h2
      have := hT1.bounds b hb
      have := this.2.2.1.ge
      exact hm3 x (by omega)
    · refine ⟨rfl, ⟨?_, ?_⟩, hp2, rfl, ⟨?_, ?_⟩, hp2, ?_⟩
      · show bSize m3 a = n / 2
        rw [← hsz]
        refine load64_congr fun x h1 h2 => ?_
        show setFree _ _ _ x = _
        rw [setFree_other (by omega), setSize_other (by omega)]
      · show bFree m3 a = true
        refine Eq.trans ?_ g2.2
        unfold bFree
        show ((setFree _ _ _ (a + 8)) != 0) = _
        rw [setFree_other (by omega), setSize_other (by omega), setSize_other (by omega)]
      · show bSize m3 _ = n / 2
        show bSize (setFree _ _ _) _ = _
        rw [setFree_size, setSize_read hnlt]
      · exact setFree_read
      · dsimp only at g4 ⊢
        have e : a + ((n / 2 : Nat) : Int) + ((n / 2 : Nat) : Int) = a + n := by omega
        rw [e]
        refine g4.congr fun b hb x h1 h2 => ?_
        have := g4.bounds b hb
        exact hm3 x (by omega)
  · intro b hb hf
    simp only [List.mem_append, List.mem_cons] at hb ⊢
    rcases hb with hb | rfl | hb
    · left; left; exact hb
    · cases hf
    · right; right; exact hb
  · intro b hb hf
    simp only [List.mem_append, List.mem_cons, List.not_mem_nil, or_false] at hb ⊢
    rcases hb with (hb | rfl) | rfl | hb
    · left; exact hb
    · cases hf
    · cases hf
    · right; right; exact hb
  · intro b hb hf
    exact hother b hb (by rintro rfl; cases hf)

theorem splitLoop_spec {size : Nat} {h t : Int} (hs : 16 ≤ size) (hs' : size < 2 ^ 63) (hlt : t - h < 2 ^ 63) :
    ∀ (f k : Nat) (n : Nat) (a : Int) (mem : Int → UInt8) (pre post : List Blk), n = 2 ^ k → k < f →
      Tiled mem t h (pre ++ ⟨a, n, true⟩ :: post) → size ≤ n →
      ∃ a' n' mem' pre', Runs h t (splitLoop size f a) mem a' mem' ∧ Tiled mem' t h (pre' ++ ⟨a', n', true⟩ :: post) ∧ size ≤ n' ∧
        Same mem (pre ++ ⟨a, n, true⟩ :: post) mem' (pre' ++ ⟨a', n', true⟩ :: post) := by
  intro f
  induction f with
  | zero => intro k n a mem pre post hk hf; omega
  | succ f ih =>
    intro k n a mem pre post hk hf hT hsn
    have hin : (⟨a, n, true⟩ : Blk) ∈ pre ++ ⟨a, n, true⟩ :: post := by simp
    obtain ⟨hb1, hb2, hp, hh, _⟩ := hT.bounds _ hin
    have hsz : bSize mem a = n := hh.1
    have hmod : size * 2 % wordMod = size * 2 := Nat.mod_eq_of_lt (by unfold wordMod; omega)
    dsimp only at hb1 hb2 hp
    have hpge := hp.ge
    by_cases hc : size * 2 < n
    · obtain ⟨s1, s2, s3, s4⟩ := split_step hT hlt (by omega)
      have hhalf := hp.half (by omega)
      have hhge := hhalf.1.ge
      obtain ⟨j, rfl⟩ : ∃ j, k = j + 1 := by
        cases k with
        | zero => rw [pow_zero] at hk; omega
        | succ j => exact ⟨j, rfl⟩
      have hj : n / 2 = 2 ^ j := by rw [hk, pow_succ]; omega
      obtain ⟨a', n', mem', pre', e1, e2, e3, e4⟩ := ih j (n / 2) _ _ _ post hj (by omega) s2 (by omega)
      refine ⟨a', n', mem', pre', ⟨fun o => ?_, fun x hx => (e1.out x hx).trans (s4 x hx)⟩, e2, e3, s3.trans e4⟩
      rw [splitLoop, bSize_mix hb1 (by omega), hsz, hmod, if_pos hc]
      dsimp only
      rw [setSize_mix hb1 (by omega), nextBuddy_mix hb1 (by omega), s1, setSize_mix (by omega) (by omega),
        setFree_mix (by omega) (by omega)]
      exact e1.run o
    · refine ⟨a, n, mem, pre, ⟨fun o => ?_, fun _ _ => rfl⟩, hT, hsn, Same.refl _ _⟩
      rw [splitLoop, bSize_mix hb1 (by omega), hsz, hmod, if_neg hc]

theorem splitBuddy_spec {size : Nat} {h t a : Int} {mem : Int → UInt8} {bs : List Blk} {b : Blk} (hs : 16 ≤ size) (hs' : size < 2 ^ 63)
    (hlt : t - h < 2 ^ 63) (hT : Tiled mem t h bs) (hb : b ∈ bs) (ha : b.addr = a) (hf : b.free = true) (hn : size ≤ b.size) :
    ∃ b' mem' bs', Runs h t (splitBuddy a size) mem (some b'.addr) mem' ∧ Tiled mem' t h bs' ∧ b' ∈ bs' ∧ b'.free = true ∧
      size ≤ b'.size ∧ Same mem bs mem' bs' := by
  obtain ⟨pre, post, rfl⟩ := List.append_of_mem hb
  obtain ⟨a1, n, f⟩ := b
  dsimp only at ha hf hn
  subst ha; subst hf
  obtain ⟨hb1, hb2, ⟨k, hk5, hk⟩, hh, _⟩ := hT.bounds _ hb
  dsimp only at hb1 hb2 hk
  have hk64 : k < 65 := by
    by_contra hcon
    have : (2 : Nat) ^ 65 ≤ 2 ^ k := Nat.pow_le_pow_right (by omega) (by omega)
    have : (2 : Nat) ^ 65 = 36893488147419103232 := by norm_num
    omega
  obtain ⟨a', n', mem', pre', e1, e2, e3, e4⟩ := splitLoop_spec hs hs' hlt 65 k n a1 mem pre post hk hk64 hT hn
  have hin : (⟨a', n', true⟩ : Blk) ∈ pre' ++ ⟨a', n', true⟩ :: post := by simp
  refine ⟨⟨a', n', true⟩, mem', _, ⟨fun o => ?_, e1.out⟩, e2, hin, rfl, e3, e4⟩
  unfold splitBuddy
  rw [e1.run o]
  simp only [Out.bind_ok]
  obtain ⟨i1, i2, i3, i4, _⟩ := e2.bounds _ hin
  have i5 := i3.ge
  dsimp only at i1 i2 i5
  have : bSize mem' a' = n' := i4.1
  rw [bSize_mix i1 (by omega), this, if_pos e3]

/-! ## Merging -/

theorem merge_step {mem : Int → UInt8} {h t a c : Int} {n : Nat} {pre post : List Blk}
    (hT : Tiled mem t h (pre ++ ⟨a, n, true⟩ :: ⟨c, n, true⟩ :: post)) (hlt : t - h < 2 ^ 63) :
    let m' := setSize a (n * 2 % wordMod) mem
    bSize m' a = n * 2 ∧ bSize m' c = n ∧ c = a + n ∧
    Tiled m' t h (pre ++ ⟨a, n * 2, true⟩ :: post) ∧
    Grown mem (pre ++ ⟨a, n, true⟩ :: ⟨c, n, true⟩ :: post) m' (pre ++ ⟨a, n * 2, true⟩ :: post) ∧
    (∀ x, x < h ∨ t ≤ x → m' x = mem x) := by
  intro m'
  have hin : (⟨a, n, true⟩ : Blk) ∈ pre ++ ⟨a, n, true⟩ :: ⟨c, n, true⟩ :: post := by simp
  have hin2 : (⟨c, n, true⟩ : Blk) ∈ pre ++ ⟨a, n, true⟩ :: ⟨c, n, true⟩ :: post := by simp
  obtain ⟨hb1, hb2, hp, hh, _⟩ := hT.bounds _ hin
  obtain ⟨hc1, hc2, _, hhc, _⟩ := hT.bounds _ hin2
  dsimp only at hb1 hb2 hp hc1 hc2
  have hge := hp.ge
  have hmod : n * 2 % wordMod = n * 2 := Nat.mod_eq_of_lt (by unfold wordMod; omega)
  have hm' : ∀ x, x < a ∨ a + 8 ≤ x → m' x = mem x := fun x hx => setSize_other hx
  obtain ⟨k, hT1, hT2⟩ := Tiled.append.1 hT
  obtain ⟨g1, g2, g3, g4, g5, g6, g7⟩ := hT2
  dsimp only at g1 g4 g7
  subst g1
  have hsz : bSize m' a = n * 2 := by
    show bSize (setSize a (n * 2 % wordMod) mem) a = _
    rw [hmod, setSize_read (by omega)]
  refine ⟨hsz, ?_, g4, ?_, ⟨⟨?_, ?_, ?_⟩, ?_⟩, fun x hx => hm' x (by omega)⟩
  · refine Eq.trans ?_ hhc.1
    exact load64_congr fun x h1 h2 => hm' x (by omega)
  · refine Tiled.append.2 ⟨a, hT1.congr ?_, rfl, ⟨hsz, ?_⟩, hp.double, ?_⟩
    · intro b hb x h1 h2
      have := hT1.bounds b hb
      have := this.2.2.1.ge
      exact hm' x (by omega)
    · show bFree m' a = true
      refine Eq.trans ?_ g2.2
      exact setSize_free
    · dsimp only
      have e : a + ((n * 2 : Nat) : Int) = a + n + n := by push_cast; ring
      rw [e]
      refine g7.congr fun b hb x h1 h2 => ?_
      have := g7.bounds b hb
      exact hm' x (by omega)
  · intro b hb hf
    simp only [List.mem_append, List.mem_cons] at hb ⊢
    rcases hb with hb | rfl | rfl | hb
    · left; exact hb
    · cases hf
    · cases hf
    · right; right; exact hb
  · intro b hb hf
    simp only [List.mem_append, List.mem_cons] at hb ⊢
    rcases hb with hb | rfl | hb
    · left; exact hb
    · cases hf
    · right; right; right; exact hb
  · intro b hb hf x h1 h2
    have hne : b ≠ ⟨a, n, true⟩ := by rintro rfl; cases hf
    have := hT.apart b hb _ hin hne
    dsimp only at this
    exact hm' x (by omega)
  · intro b hb hf
    simp only [List.mem_append, List.mem_cons] at hb
    rcases hb with hb | rfl | rfl | hb
    · exact ⟨b, by simp [hb], hf, le_refl _, le_refl _⟩
    · exact ⟨⟨a, n * 2, true⟩, by simp, rfl, by dsimp only; omega, by dsimp only; push_cast; omega⟩
    · exact ⟨⟨a, n * 2, true⟩, by simp, rfl, by dsimp only; omega, by dsimp only; push_cast; omega⟩
    · exact ⟨b, by simp [hb], hf, le_refl _, le_refl _⟩

/-! ## The search -/

/-- The candidate is a free block that is large enough. -/
def Cand (size : Nat) (bs : List Blk) (best : Option Int) : Prop :=
  ∀ p, best = some p → ∃ b ∈ bs, b.addr = p ∧ b.free = true ∧ size ≤ b.size

theorem Cand.mono {size : Nat} {bs bs' : List Blk} {best : Option Int} (h : Cand size bs best)
    (hs : ∀ b ∈ bs, b.free = true → ∃ b' ∈ bs', b'.addr = b.addr ∧ b'.free = true ∧ b.size ≤ b'.size) : Cand size bs' best := by
  intro p hp
  obtain ⟨b, hb, ha, hf, hn⟩ := h p hp
  obtain ⟨b', hb', ha', hf', hn'⟩ := hs b hb hf
  exact ⟨b', hb', ha'.trans ha, hf', hn.trans hn'⟩

theorem Cand.sub {size : Nat} {bs bs' : List Blk} {best : Option Int} (h : Cand size bs best) (hs : bs ⊆ bs') : Cand size bs' best :=
  h.mono fun b hb hf => ⟨b, hs hb, rfl, hf, le_refl _⟩

theorem Cand.ite {size : Nat} {bs : List Blk} {best : Option Int} (h : Cand size bs best) {b : Blk} {c : Prop} [Decidable c]
    (hb : c → b ∈ bs ∧ b.free = true ∧ size ≤ b.size) : Cand size bs (if c then some b.addr else best) := by
  by_cases hc : c
  · rw [if_pos hc]
    obtain ⟨h1, h2, h3⟩ := hb hc
    intro p hp
    exact ⟨b, h1, by simpa using hp, h2, h3⟩
  · rw [if_neg hc]; exact h

theorem atLeastAsGood_mix {size : Nat} {h t : Int} {bs : List Blk} {best : Option Int} {m o : Int → UInt8} {n : Nat}
    (hC : Cand size bs best) (hb : ∀ b ∈ bs, h ≤ b.addr ∧ b.addr + 8 ≤ t) :
    atLeastAsGood (mix h t m o) n best = atLeastAsGood m n best := by
  cases best with
  | none => rfl
  | some p =>
    obtain ⟨b, hb', rfl, _⟩ := hC p rfl
    unfold atLeastAsGood
    dsimp only
    rw [bSize_mix (hb b hb').1 (hb b hb').2]

theorem betterThan_mix {size : Nat} {h t : Int} {bs : List Blk} {best : Option Int} {m o : Int → UInt8} {n : Nat}
    (hC : Cand size bs best) (hb : ∀ b ∈ bs, h ≤ b.addr ∧ b.addr + 8 ≤ t) :
    betterThan (mix h t m o) n best = betterThan m n best := by
  cases best with
  | none => rfl
  | some p =>
    obtain ⟨b, hb', rfl, _⟩ := hC p rfl
    unfold betterThan
    dsimp only
    rw [bSize_mix (hb b hb').1 (hb b hb').2]

theorem Tiled.inside {m : Int → UInt8} {t h : Int} {bs bs' : List Blk} (hT : Tiled m t h bs) (hs : bs' ⊆ bs) :
    ∀ b ∈ bs', h ≤ b.addr ∧ b.addr + 8 ≤ t := by
  intro b hb
  obtain ⟨h1, h2, h3, _⟩ := hT.bounds b (hs hb)
  have := h3.ge
  exact ⟨h1, by omega⟩

theorem nextIf_mix {h t x : Int} {m o : Int → UInt8} (c : Int) (hx : x < t → h ≤ x ∧ x + 8 ≤ t) :
    (if x < t then nextBuddy (mix h t m o) x else c) = (if x < t then nextBuddy m x else c) := by
  by_cases g : x < t
  · rw [if_pos g, if_pos g, nextBuddy_mix (hx g).1 (hx g).2]
  · rw [if_neg g, if_neg g]

theorem Tiled.room {m : Int → UInt8} {t h x : Int} {bs : List Blk} (hT : Tiled m t x bs) (hx : h ≤ x) :
    x < t → h ≤ x ∧ x + 8 ≤ t := by
  intro g
  cases bs with
  | nil => have : x = t := hT; omega
  | cons b bs =>
    have := hT.le
    simp only [List.length_cons] at this
    exact ⟨hx, by push_cast at this; omega⟩

theorem findLoop_spec {size : Nat} {h t : Int} (hlt : t - h < 2 ^ 63) :
    ∀ (f : Nat) (pre suf : List Blk) (m buddy : Int) (best : Option Int) (mem : Int → UInt8),
      Tiled mem m h pre → Tiled mem t m suf → (∀ b rest, suf = b :: rest → buddy = m + b.size) →
      Cand size (pre ++ suf.take 1) best → suf.length < f →
      ∃ best' mem' bs', Runs h t (findLoop size t f m buddy best) mem best' mem' ∧ Tiled mem' t h bs' ∧
        Grown mem (pre ++ suf) mem' bs' ∧ Cand size bs' best' ∧
        (best' = none → best = none ∧ ∀ b ∈ suf.dropLast, b.free = true → b.size < size) := by
  intro f
  induction f with
  | zero => intro pre suf m buddy best mem _ _ _ _ hf; omega
  | succ f ih =>
    intro pre suf m buddy best mem hP hS hbud hC hf
    have hT : Tiled mem t h (pre ++ suf) := Tiled.append.2 ⟨m, hP, hS⟩
    cases suf with
    | nil =>
      have : m = t := hS
      refine ⟨best, mem, pre ++ [], ⟨fun o => by rw [findLoop, if_neg (by omega)], fun _ _ => rfl⟩, hT, Grown.refl _ _, hC.sub (by simp), fun hb => ⟨hb, by simp⟩⟩
    | cons b suf =>
      have hbu := hbud b suf rfl
      cases suf with
      | nil =>
        obtain ⟨h1, h2, h3, h4⟩ := hS
        have : m + b.size = t := h4
        exact ⟨best, mem, pre ++ [b], ⟨fun o => by rw [findLoop, if_neg (by omega)], fun _ _ => rfl⟩, hT, Grown.refl _ _, hC.sub (by simp), fun hb => ⟨hb, by simp⟩⟩
      | cons c rest =>
        obtain ⟨h1, h2, h3, h4⟩ := hS
        obtain ⟨g1, g2, g3, g4⟩ := h4
        have hbge := h3.ge
        have hcge := g3.ge
        have hle := g4.le
        have hPle := hP.le
        obtain ⟨ba, bn, bf⟩ := b
        obtain ⟨ca, cn, cf⟩ := c
        dsimp only at h1 h2 h3 g1 g2 g3 g4 hbu hle hbge hcge
        have hfb : bFree mem m = bf := by have := h2.2; dsimp only at this; rw [← h1]; exact this
        have hsb : bSize mem m = bn := by have := h2.1; dsimp only at this; rw [← h1]; exact this
        have hbc : buddy = ca := by omega
        have hfc : bFree mem buddy = cf := by rw [hbc]; exact g2.2
        have hsc : bSize mem buddy = cn := by rw [hbc]; exact g2.1
        have hnext : nextBuddy mem buddy = m + bn + cn := by unfold nextBuddy; rw [hsc]; omega
        subst h1
        subst hbc
        have hin1 : h ≤ ba ∧ ba + 9 ≤ t := by constructor <;> omega
        have hin2 : h ≤ buddy ∧ buddy + 9 ≤ t := by constructor <;> omega
        by_cases hm : bf = true ∧ cf = true ∧ bn = cn
        · obtain ⟨rfl, rfl, rfl⟩ := hm
          obtain ⟨s1, s2, s3, s4, s5, s6⟩ := merge_step hT hlt
          obtain ⟨k, hk1, hk2, hk3, hk4, hk5⟩ := Tiled.append.1 s4
          dsimp only at hk2 hk5
          subst hk2
          have hnx : nextBuddy (setSize ba (bn * 2 % wordMod) mem) buddy = ba + ((bn * 2 : Nat) : Int) := by
            unfold nextBuddy; rw [s2]; push_cast; omega
          have hP' : Tiled (setSize ba (bn * 2 % wordMod) mem) (ba + ((bn * 2 : Nat) : Int)) h (pre ++ [⟨ba, bn * 2, true⟩]) :=
            Tiled.append.2 ⟨ba, hk1, rfl, hk3, hk4, rfl⟩
          have hC' : Cand size ((pre ++ [⟨ba, bn * 2, true⟩]) ++ rest.take 1) best := by
            refine hC.mono fun b hb hfr => ?_
            simp only [List.take_succ_cons, List.take_zero, List.mem_append, List.mem_cons, List.not_mem_nil, or_false] at hb
            rcases hb with hb | rfl
            · exact ⟨b, by simp [hb], rfl, hfr, le_refl _⟩
            · exact ⟨⟨ba, bn * 2, true⟩, by simp, rfl, rfl, by dsimp only; omega⟩
          have hin' : (⟨ba, bn * 2, true⟩ : Blk) ∈ (pre ++ [⟨ba, bn * 2, true⟩]) ++ rest.take 1 := by simp
          have hC2 := hC'.ite (b := ⟨ba, bn * 2, true⟩)
            (c := size ≤ bn * 2 ∧ atLeastAsGood (setSize ba (bn * 2 % wordMod) mem) (bn * 2) best = true)
            (fun hc => ⟨hin', rfl, hc.1⟩)
          obtain ⟨best', mem', bs', e1, e2, e3, e4, e5⟩ := ih (pre ++ [⟨ba, bn * 2, true⟩]) rest (ba + ((bn * 2 : Nat) : Int))
            (if ba + ((bn * 2 : Nat) : Int) < t then nextBuddy (setSize ba (bn * 2 % wordMod) mem) (ba + ((bn * 2 : Nat) : Int)) else buddy)
            _ _ hP' hk5 (by
              rintro b r rfl
              obtain ⟨q1, q2, q3, q4⟩ := hk5
              have := q4.le
              have := q3.ge
              rw [if_pos (by omega)]
              unfold nextBuddy
              have := q2.1
              rw [q1] at this
              rw [this]) hC2 (by simp at hf; omega)
          refine ⟨best', mem', bs', ⟨fun o => ?_, fun x hx => (e1.out x hx).trans (s6 x hx)⟩, e2, ?_, e4, ?_⟩
          · rw [findLoop, if_pos (by omega), bFree_mix hin1.1 hin1.2, bFree_mix hin2.1 hin2.2, bSize_mix hin1.1 (by omega),
              bSize_mix hin2.1 (by omega), hfb, hfc, hsb, hsc, if_pos ⟨rfl, rfl, rfl⟩]
            dsimp only
            have hal := atLeastAsGood_mix (m := setSize ba (bn * 2 % wordMod) mem) (o := o) (n := bn * 2) hC' (s4.inside (t := t) (h := h) (by
              intro z hz
              simp only [List.append_assoc, List.mem_append, List.mem_cons, List.not_mem_nil, or_false] at hz ⊢
              rcases hz with hz | rfl | hz
              · left; exact hz
              · right; left; rfl
              · right; right; exact List.mem_of_mem_take hz))
            rw [setSize_mix hin1.1 (by omega), nextBuddy_mix hin2.1 (by omega), bSize_mix hin1.1 (by omega), hnx, s1, hal,
              nextIf_mix buddy (hk5.room (h := h) (by omega))]
            exact e1.run o
          · rw [List.append_assoc] at e3
            exact s5.trans e3
          · intro hnone
            obtain ⟨hn1, hn2⟩ := e5 hnone
            have hn3 : best = none := by
              by_contra hne
              by_cases hc : size ≤ bn * 2 ∧ atLeastAsGood (setSize ba (bn * 2 % wordMod) mem) (bn * 2) best = true
              · rw [if_pos hc] at hn1; cases hn1
              · rw [if_neg hc] at hn1; exact hne hn1
            have hlt2 : bn * 2 < size := by
              by_contra hge2
              rw [if_pos ⟨by omega, by rw [hn3]; rfl⟩] at hn1
              cases hn1
            refine ⟨hn3, fun b hb hfr => ?_⟩
            cases rest with
            | nil =>
              have hb' : b = ⟨ba, bn, true⟩ := by simpa using hb
              rw [hb']; dsimp only; omega
            | cons r0 rs =>
              rw [List.dropLast_cons_cons, List.dropLast_cons_cons] at hb
              rcases List.mem_cons.1 hb with rfl | hb
              · dsimp only; omega
              · rcases List.mem_cons.1 hb with rfl | hb
                · dsimp only; omega
                · exact hn2 b hb hfr
        · have hinb : (⟨ba, bn, bf⟩ : Blk) ∈ pre ++ [⟨ba, bn, bf⟩, ⟨buddy, cn, cf⟩] := by simp
          have hinc : (⟨buddy, cn, cf⟩ : Blk) ∈ pre ++ [⟨ba, bn, bf⟩, ⟨buddy, cn, cf⟩] := by simp
          have hC0 : Cand size (pre ++ [⟨ba, bn, bf⟩, ⟨buddy, cn, cf⟩]) best := hC.sub (by simp)
          have hC1 := hC0.ite (b := ⟨ba, bn, bf⟩) (c := bf = true ∧ size ≤ bn ∧ betterThan mem bn best = true)
            (fun hc => ⟨hinb, hc.1, hc.2.1⟩)
          dsimp only at hC1
          have hC2 := hC1.ite (b := ⟨buddy, cn, cf⟩) (c := cf = true ∧ size ≤ cn ∧
            betterThan mem cn (if bf = true ∧ size ≤ bn ∧ betterThan mem bn best = true then some ba else best) = true)
            (fun hc => ⟨hinc, hc.1, hc.2.1⟩)
          have hbt1 := fun o => betterThan_mix (m := mem) (o := o) (n := bn) hC0 (hT.inside (by
            intro z hz; simp only [List.mem_append, List.mem_cons, List.not_mem_nil, or_false] at hz ⊢; tauto))
          have hbt2 := fun o => betterThan_mix (m := mem) (o := o) (n := cn) hC1 (hT.inside (by
            intro z hz; simp only [List.mem_append, List.mem_cons, List.not_mem_nil, or_false] at hz ⊢; tauto))
          have start : ∀ o, findLoop size t (f + 1) ba buddy best (mix h t mem o) =
              (if bn < cn then findLoop size t f (ba + bn + cn) (if ba + bn + cn < t then nextBuddy mem (ba + bn + cn) else buddy)
                (if cf = true ∧ size ≤ cn ∧
                  betterThan mem cn (if bf = true ∧ size ≤ bn ∧ betterThan mem bn best = true then some ba else best) = true then some buddy
                 else (if bf = true ∧ size ≤ bn ∧ betterThan mem bn best = true then some ba else best)) (mix h t mem o)
               else findLoop size t f buddy (ba + bn + cn)
                (if cf = true ∧ size ≤ cn ∧
                  betterThan mem cn (if bf = true ∧ size ≤ bn ∧ betterThan mem bn best = true then some ba else best) = true then some buddy
                 else (if bf = true ∧ size ≤ bn ∧ betterThan mem bn best = true then some ba else best)) (mix h t mem o)) := by
            intro o
            rw [findLoop, if_pos (by omega), bFree_mix hin1.1 hin1.2, bFree_mix hin2.1 hin2.2, bSize_mix hin1.1 (by omega),
              bSize_mix hin2.1 (by omega), hfb, hfc, hsb, hsc, if_neg hm]
            dsimp only
            rw [hbt1 o, hbt2 o, nextBuddy_mix hin2.1 (by omega), hnext, nextIf_mix buddy (g4.room (h := h) (by omega))]
          have hnone2 : (if cf = true ∧ size ≤ cn ∧
                  betterThan mem cn (if bf = true ∧ size ≤ bn ∧ betterThan mem bn best = true then some ba else best) = true then some buddy
                 else (if bf = true ∧ size ≤ bn ∧ betterThan mem bn best = true then some ba else best)) = none →
              best = none ∧ (bf = true → bn < size) ∧ (cf = true → cn < size) := by
            intro hn
            have hn1 : (if bf = true ∧ size ≤ bn ∧ betterThan mem bn best = true then some ba else best) = none := by
              by_contra hne
              by_cases hc : cf = true ∧ size ≤ cn ∧
                  betterThan mem cn (if bf = true ∧ size ≤ bn ∧ betterThan mem bn best = true then some ba else best) = true
              · rw [if_pos hc] at hn; cases hn
              · rw [if_neg hc] at hn; exact hne hn
            have hn2 : best = none := by
              by_contra hne
              by_cases hc : bf = true ∧ size ≤ bn ∧ betterThan mem bn best = true
              · rw [if_pos hc] at hn1; cases hn1
              · rw [if_neg hc] at hn1; exact hne hn1
            refine ⟨hn2, fun hb => ?_, fun hc => ?_⟩
            · by_contra hge2
              rw [if_pos ⟨hb, by omega, by rw [hn2]; rfl⟩] at hn1
              cases hn1
            · by_contra hge2
              rw [if_pos ⟨hc, by omega, by rw [hn1]; rfl⟩] at hn
              cases hn
          by_cases hsz : bn < cn
          · simp only [if_pos hsz] at start
            have hP' : Tiled mem (ba + bn + cn) h (pre ++ [⟨ba, bn, bf⟩, ⟨buddy, cn, cf⟩]) :=
              Tiled.append.2 ⟨ba, hP, rfl, h2, h3, g1, g2, g3, rfl⟩
            obtain ⟨best', mem', bs', e1, e2, e3, e4, e5⟩ := ih (pre ++ [⟨ba, bn, bf⟩, ⟨buddy, cn, cf⟩]) rest (ba + bn + cn)
              (if ba + bn + cn < t then nextBuddy mem (ba + bn + cn) else buddy) _ _ hP' g4 (by
                rintro b r rfl
                obtain ⟨q1, q2, q3, q4⟩ := g4
                have := q4.le
                have := q3.ge
                rw [if_pos (by omega)]
                unfold nextBuddy
                have := q2.1
                rw [q1] at this
                rw [this]) (hC2.sub (by simp)) (by simp at hf; omega)
            refine ⟨best', mem', bs', ⟨fun o => (start o).trans (e1.run o), e1.out⟩, e2, ?_, e4, ?_⟩
            · rw [List.append_assoc] at e3
              exact e3
            · intro hn
              obtain ⟨k1, k2⟩ := e5 hn
              obtain ⟨k3, k4, k5⟩ := hnone2 k1
              refine ⟨k3, fun b hb hfr => ?_⟩
              cases rest with
              | nil =>
                have hb' : b = ⟨ba, bn, bf⟩ := by simpa using hb
                rw [hb'] at hfr ⊢; exact k4 hfr
              | cons r0 rs =>
                rw [List.dropLast_cons_cons, List.dropLast_cons_cons] at hb
                rcases List.mem_cons.1 hb with rfl | hb
                · exact k4 hfr
                · rcases List.mem_cons.1 hb with rfl | hb
                  · exact k5 hfr
                  · exact k2 b hb hfr
          · simp only [if_neg hsz] at start
            have hP' : Tiled mem buddy h (pre ++ [⟨ba, bn, bf⟩]) :=
              Tiled.append.2 ⟨ba, hP, rfl, h2, h3, hbu.symm⟩
            have hS' : Tiled mem t buddy (⟨buddy, cn, cf⟩ :: rest) := by
              exact ⟨rfl, g2, g3, by rw [hbu]; exact g4⟩
            obtain ⟨best', mem', bs', e1, e2, e3, e4, e5⟩ := ih (pre ++ [⟨ba, bn, bf⟩]) (⟨buddy, cn, cf⟩ :: rest) buddy (ba + bn + cn)
              _ _ hP' hS' (by
                intro b r he
                cases he
                dsimp only; omega) (hC2.sub (by simp)) (by simp at hf ⊢; omega)
            refine ⟨best', mem', bs', ⟨fun o => (start o).trans (e1.run o), e1.out⟩, e2, ?_, e4, ?_⟩
            · rw [List.append_assoc] at e3
              exact e3
            · intro hn
              obtain ⟨k1, k2⟩ := e5 hn
              obtain ⟨k3, k4, k5⟩ := hnone2 k1
              refine ⟨k3, fun b hb hfr => ?_⟩
              rw [List.dropLast_cons_cons] at hb
              rcases List.mem_cons.1 hb with rfl | hb
              · exact k4 hfr
              · exact k2 b hb hfr

theorem coalesceLoop_spec {h t : Int} (hlt : t - h < 2 ^ 63) :
    ∀ (f : Nat) (pre suf : List Blk) (m buddy : Int) (noC : Bool) (mem : Int → UInt8),
      Tiled mem m h pre → Tiled mem t m suf → (∀ b rest, suf = b :: rest → buddy = m + b.size) → suf.length < f →
      ∃ noC' mem' bs', Runs h t (coalesceLoop t f m buddy noC) mem noC' mem' ∧ Tiled mem' t h bs' ∧
        Grown mem (pre ++ suf) mem' bs' ∧ bs'.length ≤ (pre ++ suf).length ∧
        (noC' = false → noC = false ∨ bs'.length < (pre ++ suf).length) := by
  intro f
  induction f with
  | zero => intro pre suf m buddy noC mem _ _ _ hf; omega
  | succ f ih =>
    intro pre suf m buddy noC mem hP hS hbud hf
    have hT : Tiled mem t h (pre ++ suf) := Tiled.append.2 ⟨m, hP, hS⟩
    cases suf with
    | nil =>
      have : m = t := hS
      exact ⟨noC, mem, pre ++ [], ⟨fun o => by rw [coalesceLoop, if_neg (by omega)], fun _ _ => rfl⟩, hT, Grown.refl _ _, le_refl _, fun hn => Or.inl hn⟩
    | cons b suf =>
      have hbu := hbud b suf rfl
      cases suf with
      | nil =>
        obtain ⟨h1, h2, h3, h4⟩ := hS
        have : m + b.size = t := h4
        exact ⟨noC, mem, pre ++ [b], ⟨fun o => by rw [coalesceLoop, if_neg (by omega)], fun _ _ => rfl⟩, hT, Grown.refl _ _, le_refl _, fun hn => Or.inl hn⟩
      | cons c rest =>
        obtain ⟨h1, h2, h3, h4⟩ := hS
        obtain ⟨g1, g2, g3, g4⟩ := h4
        have hbge := h3.ge
        have hcge := g3.ge
        have hle := g4.le
        have hPle := hP.le
        obtain ⟨ba, bn, bf⟩ := b
        obtain ⟨ca, cn, cf⟩ := c
        dsimp only at h1 h2 h3 g1 g2 g3 g4 hbu hle hbge hcge
        have hfb : bFree mem m = bf := by have := h2.2; dsimp only at this; rw [← h1]; exact this
        have hsb : bSize mem m = bn := by have := h2.1; dsimp only at this; rw [← h1]; exact this
        have hbc : buddy = ca := by omega
        have hfc : bFree mem buddy = cf := by rw [hbc]; exact g2.2
        have hsc : bSize mem buddy = cn := by rw [hbc]; exact g2.1
        have hnext : nextBuddy mem buddy = m + bn + cn := by unfold nextBuddy; rw [hsc]; omega
        subst h1
        subst hbc
        have hin1 : h ≤ ba ∧ ba + 9 ≤ t := by constructor <;> omega
        have hin2 : h ≤ buddy ∧ buddy + 9 ≤ t := by constructor <;> omega
        have skip : ∃ noC' mem' bs', Runs h t (coalesceLoop t f (ba + bn + cn)
              (if ba + bn + cn < t then nextBuddy mem (ba + bn + cn) else buddy) noC) mem noC' mem' ∧ Tiled mem' t h bs' ∧
            Grown mem (pre ++ ⟨ba, bn, bf⟩ :: ⟨buddy, cn, cf⟩ :: rest) mem' bs' ∧
            bs'.length ≤ (pre ++ ⟨ba, bn, bf⟩ :: ⟨buddy, cn, cf⟩ :: rest).length ∧
            (noC' = false → noC = false ∨ bs'.length < (pre ++ ⟨ba, bn, bf⟩ :: ⟨buddy, cn, cf⟩ :: rest).length) := by
          have hP' : Tiled mem (ba + bn + cn) h (pre ++ [⟨ba, bn, bf⟩, ⟨buddy, cn, cf⟩]) :=
            Tiled.append.2 ⟨ba, hP, rfl, h2, h3, g1, g2, g3, rfl⟩
          obtain ⟨noC', mem', bs', e1, e2, e3, e4, e5⟩ := ih (pre ++ [⟨ba, bn, bf⟩, ⟨buddy, cn, cf⟩]) rest (ba + bn + cn)
            (if ba + bn + cn < t then nextBuddy mem (ba + bn + cn) else buddy) noC _ hP' g4 (by
              rintro b r rfl
              obtain ⟨q1, q2, q3, q4⟩ := g4
              have := q4.le
              have := q3.ge
              rw [if_pos (by omega)]
              unfold nextBuddy
              have := q2.1
              rw [q1] at this
              rw [this]) (by simp at hf; omega)
          rw [List.append_assoc] at e3 e4 e5
          exact ⟨noC', mem', bs', e1, e2, e3, e4, e5⟩
        have hskip := fun o => nextIf_mix (m := mem) (o := o) buddy (g4.room (h := h) (by omega))
        have start : ∀ o, coalesceLoop t (f + 1) ba buddy noC (mix h t mem o) =
            if bn < cn then coalesceLoop t f (ba + bn + cn) (if ba + bn + cn < t then nextBuddy mem (ba + bn + cn) else buddy) noC (mix h t mem o)
            else if bn > cn then coalesceLoop t f buddy (ba + bn + cn) noC (mix h t mem o)
            else if bf = true ∧ cf = true then
              (if nextBuddy (setSize ba (bn * 2 % wordMod) (mix h t mem o)) ba < t then
                coalesceLoop t f (nextBuddy (setSize ba (bn * 2 % wordMod) (mix h t mem o)) ba)
                  (nextBuddy (setSize ba (bn * 2 % wordMod) (mix h t mem o)) (nextBuddy (setSize ba (bn * 2 % wordMod) (mix h t mem o)) ba))
                  false (setSize ba (bn * 2 % wordMod) (mix h t mem o))
               else coalesceLoop t f (nextBuddy (setSize ba (bn * 2 % wordMod) (mix h t mem o)) ba) buddy noC
                  (setSize ba (bn * 2 % wordMod) (mix h t mem o)))
            else coalesceLoop t f (ba + bn + cn) (if ba + bn + cn < t then nextBuddy mem (ba + bn + cn) else buddy) noC (mix h t mem o) := by
          intro o
          rw [coalesceLoop, if_pos (by omega), bFree_mix hin1.1 hin1.2, bFree_mix hin2.1 hin2.2, bSize_mix hin1.1 (by omega),
            bSize_mix hin2.1 (by omega), hfb, hfc, hsb, hsc]
          dsimp only
          rw [nextBuddy_mix hin2.1 (by omega), hnext, hskip o]
        by_cases hlt1 : bn < cn
        · simp only [if_pos hlt1] at start
          obtain ⟨noC', mem', bs', e1, e2⟩ := skip
          exact ⟨noC', mem', bs', ⟨fun o => (start o).trans (e1.run o), e1.out⟩, e2⟩
        · simp only [if_neg hlt1] at start
          by_cases hgt : bn > cn
          · simp only [if_pos hgt] at start
            have hP' : Tiled mem buddy h (pre ++ [⟨ba, bn, bf⟩]) :=
              Tiled.append.2 ⟨ba, hP, rfl, h2, h3, hbu.symm⟩
            have hS' : Tiled mem t buddy (⟨buddy, cn, cf⟩ :: rest) := ⟨rfl, g2, g3, by rw [hbu]; exact g4⟩
            obtain ⟨noC', mem', bs', e1, e2, e3, e4, e5⟩ := ih (pre ++ [⟨ba, bn, bf⟩]) (⟨buddy, cn, cf⟩ :: rest) buddy (ba + bn + cn)
              noC _ hP' hS' (by
                intro b r he
                cases he
                dsimp only; omega) (by simp at hf ⊢; omega)
            rw [List.append_assoc] at e3 e4 e5
            exact ⟨noC', mem', bs', ⟨fun o => (start o).trans (e1.run o), e1.out⟩, e2, e3, e4, e5⟩
          · simp only [if_neg hgt] at start
            have hen : bn = cn := by omega
            by_cases hfree : bf = true ∧ cf = true
            · simp only [if_pos hfree] at start
              obtain ⟨rfl, rfl⟩ := hfree
              subst hen
              obtain ⟨s1, s2, s3, s4, s5, s6⟩ := merge_step hT hlt
              obtain ⟨k, hk1, hk2, hk3, hk4, hk5⟩ := Tiled.append.1 s4
              dsimp only at hk2 hk5
              subst hk2
              have hnx : nextBuddy (setSize ba (bn * 2 % wordMod) mem) ba = ba + ((bn * 2 : Nat) : Int) := by
                unfold nextBuddy; rw [s1]
              have hms := fun o => setSize_mix (h := h) (t := t) (p := ba) (n := bn * 2 % wordMod) (m := mem) (o := o) hin1.1 (by omega)
              have hns : ∀ o, nextBuddy (mix h t (setSize ba (bn * 2 % wordMod) mem) o) ba = ba + ((bn * 2 : Nat) : Int) :=
                fun o => by rw [nextBuddy_mix hin1.1 (by omega), hnx]
              simp only [hms, hns] at start
              have hP' : Tiled (setSize ba (bn * 2 % wordMod) mem) (ba + ((bn * 2 : Nat) : Int)) h (pre ++ [⟨ba, bn * 2, true⟩]) :=
                Tiled.append.2 ⟨ba, hk1, rfl, hk3, hk4, rfl⟩
              have go : ∀ (bud : Int) (nc : Bool), (∀ b r, rest = b :: r → bud = ba + ((bn * 2 : Nat) : Int) + b.size) →
                  ∃ noC' mem' bs', Runs h t (coalesceLoop t f (ba + ((bn * 2 : Nat) : Int)) bud nc) (setSize ba (bn * 2 % wordMod) mem) noC' mem' ∧
                    Tiled mem' t h bs' ∧
                    Grown mem (pre ++ ⟨ba, bn, true⟩ :: ⟨buddy, bn, true⟩ :: rest) mem' bs' ∧
                    bs'.length ≤ (pre ++ ⟨ba, bn, true⟩ :: ⟨buddy, bn, true⟩ :: rest).length ∧
                    (noC' = false → noC = false ∨ bs'.length < (pre ++ ⟨ba, bn, true⟩ :: ⟨buddy, bn, true⟩ :: rest).length) := by
                intro bud nc hbd
                obtain ⟨noC', mem', bs', e1, e2, e3, e4, e5⟩ := ih (pre ++ [⟨ba, bn * 2, true⟩]) rest _ bud nc _ hP' hk5 hbd
                  (by simp at hf; omega)
                refine ⟨noC', mem', bs', e1, e2, ?_, ?_, ?_⟩
                · rw [List.append_assoc] at e3
                  exact s5.trans e3
                · simp at e4 ⊢; omega
                · intro _; right; simp at e4 ⊢; omega
              by_cases hlast : ba + ((bn * 2 : Nat) : Int) < t
              · simp only [if_pos hlast] at start
                have hns2 := fun o => nextBuddy_mix (m := setSize ba (bn * 2 % wordMod) mem) (o := o) (hk5.room (h := h) (by omega) hlast).1
                  (hk5.room (h := h) (by omega) hlast).2
                simp only [hns2] at start
                obtain ⟨noC', mem', bs', e1, e2⟩ := go (nextBuddy (setSize ba (bn * 2 % wordMod) mem) (ba + ((bn * 2 : Nat) : Int))) false (by
                  rintro b r rfl
                  obtain ⟨q1, q2, q3, q4⟩ := hk5
                  unfold nextBuddy
                  have := q2.1
                  rw [q1] at this
                  rw [this])
                exact ⟨noC', mem', bs', ⟨fun o => (start o).trans (e1.run o), fun x hx => (e1.out x hx).trans (s6 x hx)⟩, e2⟩
              · simp only [if_neg hlast] at start
                obtain ⟨noC', mem', bs', e1, e2⟩ := go buddy noC (by
                  rintro b r rfl
                  obtain ⟨q1, q2, q3, q4⟩ := hk5
                  have := q4.le
                  have := q3.ge
                  omega)
                exact ⟨noC', mem', bs', ⟨fun o => (start o).trans (e1.run o), fun x hx => (e1.out x hx).trans (s6 x hx)⟩, e2⟩
            · simp only [if_neg hfree] at start
              obtain ⟨noC', mem', bs', e1, e2⟩ := skip
              exact ⟨noC', mem', bs', ⟨fun o => (start o).trans (e1.run o), e1.out⟩, e2⟩

theorem Tiled.first {mem : Int → UInt8} {t h : Int} {bs : List Blk} (hT : Tiled mem t h bs) :
    ∀ b rest, bs = b :: rest → nextBuddy mem h = h + b.size := by
  rintro b rest rfl
  obtain ⟨h1, h2, _, _⟩ := hT
  unfold nextBuddy
  have := h2.1
  rw [h1] at this
  rw [this]

theorem coalesce_spec {h t : Int} (hlt : t - h < 2 ^ 63) (hht : h < t) : ∀ (f : Nat) (bs : List Blk) (mem : Int → UInt8), Tiled mem t h bs →
    bs.length < f → ∃ mem' bs', ((∀ o, coalesceBuddies h t f (mix h t mem o) = .ok (mix h t mem' o)) ∧
      ∀ x, x < h ∨ t ≤ x → mem' x = mem x) ∧ Tiled mem' t h bs' ∧ Grown mem bs mem' bs' := by
  intro f
  induction f with
  | zero => intro bs mem _ hf; omega
  | succ f ih =>
    intro bs mem hT hf
    have hle := hT.le
    obtain ⟨noC, mem', bs', e1, e2, e3, e4, e5⟩ := coalesceLoop_spec hlt ((t - h).toNat + 1) [] bs h (nextBuddy mem h) true mem rfl hT
      hT.first (by omega)
    have h8 := (hT.room (h := h) (le_refl _) hht).2
    have start : ∀ o, coalesceBuddies h t (f + 1) (mix h t mem o) = if noC = true then .ok (mix h t mem' o) else
        coalesceBuddies h t f (mix h t mem' o) := by
      intro o
      rw [coalesceBuddies, nextBuddy_mix (le_refl _) h8, e1.run o]
      rfl
    cases noC with
    | true => exact ⟨mem', bs', ⟨fun o => by rw [start o, if_pos rfl], e1.out⟩, e2, e3⟩
    | false =>
      have hl := e5 rfl
      simp only [List.nil_append, Bool.true_eq_false, false_or] at hl
      obtain ⟨mem2, bs2, f1, f2, f3⟩ := ih bs' mem' e2 (by omega)
      exact ⟨mem2, bs2, ⟨fun o => by rw [start o, if_neg (by decide)]; exact f1.1 o, fun x hx => (f1.2 x hx).trans (e1.out x hx)⟩, f2, e3.trans f3⟩

theorem findBest_spec {size : Nat} {h t : Int} (hs : 16 ≤ size) (hs' : size < 2 ^ 63) (hlt : t - h < 2 ^ 63) (hht : h < t)
    {bs : List Blk} {mem : Int → UInt8} (hT : Tiled mem t h bs) :
    ∃ r mem' bs', Runs h t (findBestBuddy h t size) mem r mem' ∧ Tiled mem' t h bs' ∧ Same mem bs mem' bs' ∧ Cand size bs' r ∧
      (r = none → ∀ b ∈ bs, b.free = true → size ≤ b.size → ∃ pre, pre ≠ [] ∧ bs = pre ++ [b]) := by
  have h9 : h + 32 ≤ t := by
    cases bs with
    | nil => have : h = t := hT; omega
    | cons b bs => have := hT.le; simp only [List.length_cons] at this; push_cast at this; omega
  have start : ∀ o, findBestBuddy h t size (mix h t mem o) =
      if nextBuddy mem h = t ∧ bFree mem h = true then splitBuddy h size (mix h t mem o)
      else (findLoop size t ((t - h).toNat + 1) h (nextBuddy mem h) none (mix h t mem o)).bind fun x =>
        match x.1 with
        | some b => splitBuddy b size x.2
        | none => .ok (none, x.2) := by
    intro o
    unfold findBestBuddy
    rw [nextBuddy_mix (le_refl _) (by omega), bFree_mix (le_refl _) (by omega)]
    rfl
  by_cases hc : nextBuddy mem h = t ∧ bFree mem h = true
  · simp only [if_pos hc] at start
    cases bs with
    | nil => have : h = t := hT; omega
    | cons b rest =>
      have hn := hT.first b rest rfl
      have hT' := hT
      obtain ⟨h1, h2, h3, h4⟩ := hT'
      have hfree : b.free = true := by
        rw [← h2.2, h1]; exact hc.2
      by_cases hsz : size ≤ b.size
      · obtain ⟨b', mem', bs', e1, e2, e3, e4, e5, e6⟩ := splitBuddy_spec hs hs' hlt hT (b := b) (by simp) h1 hfree hsz
        refine ⟨_, mem', bs', ⟨fun o => (start o).trans (e1.run o), e1.out⟩, e2, e6, ?_, by rintro ⟨⟩⟩
        rintro p ⟨⟩
        exact ⟨b', e3, rfl, e4, e5⟩
      · refine ⟨none, mem, _, ⟨fun o => (start o).trans ?_, fun _ _ => rfl⟩, hT, Same.refl _ _, by rintro p ⟨⟩, ?_⟩
        rotate_left
        · intro _ b' hb' _ hn'
          have hrest : rest = [] := by
            cases rest with
            | nil => rfl
            | cons r0 rs =>
              have := h4.le
              simp only [List.length_cons] at this
              push_cast at this
              omega
          subst hrest
          have : b' = b := by simpa using hb'
          subst this
          omega
        unfold splitBuddy splitLoop
        have hbs : bSize mem h = b.size := by rw [← h1]; exact h2.1
        have hmod : size * 2 % wordMod = size * 2 := Nat.mod_eq_of_lt (by unfold wordMod; omega)
        rw [bSize_mix (le_refl _) (by omega), hbs, hmod, if_neg (by omega)]
        simp only [Out.bind_ok]
        rw [bSize_mix (le_refl _) (by omega), hbs, if_neg hsz]
  · simp only [if_neg hc] at start
    have hle := hT.le
    obtain ⟨best, mem', bs', e1, e2, e3, e4, e5⟩ := findLoop_spec (size := size) hlt ((t - h).toNat + 1) [] bs h (nextBuddy mem h) none mem rfl hT
      hT.first (by rintro p ⟨⟩) (by omega)
    simp only [List.nil_append] at e3
    cases best with
    | none =>
      refine ⟨none, mem', bs', ⟨fun o => by rw [start o, e1.run o]; rfl, e1.out⟩, e2, e3.toSame, by rintro p ⟨⟩, ?_⟩
      intro _ b hb hf hn
      have hlast := (e5 rfl).2
      have hne : bs ≠ [] := by rintro rfl; cases hb
      have hd := List.dropLast_append_getLast hne
      rw [← hd] at hb
      rcases List.mem_append.1 hb with hb | hb
      · have := hlast b hb hf; omega
      · have hb : b = bs.getLast hne := by simpa using hb
        refine ⟨bs.dropLast, ?_, by rw [hb]; exact hd.symm⟩
        intro hempty
        rw [hempty, List.nil_append, ← hb] at hd
        have hn1 := hT.first b [] hd.symm
        rw [← hd] at hT
        obtain ⟨q1, q2, q3, q4⟩ := hT
        have q4 : h + (b.size : Int) = t := q4
        exact hc ⟨by rw [hn1, q4], by rw [← q1, q2.2]; exact hf⟩
    | some p =>
      obtain ⟨b, hb, ha, hf, hn⟩ := e4 p rfl
      obtain ⟨b', mem2, bs2, f1, f2, f3, f4, f5, f6⟩ := splitBuddy_spec hs hs' hlt e2 hb ha hf hn
      refine ⟨_, mem2, bs2, ⟨fun o => by rw [start o, e1.run o]; exact f1.run o, fun x hx => (f1.out x hx).trans (e1.out x hx)⟩, f2, e3.toSame.trans f6, ?_, by rintro ⟨⟩⟩
      rintro p ⟨⟩
      exact ⟨b', f3, rfl, f4, f5⟩

/-! ## The invariant of a history -/

theorem setFlag_tiled {mem : Int → UInt8} {h t a : Int} {n : Nat} {f f' : Bool} {pre post : List Blk}
    (hT : Tiled mem t h (pre ++ ⟨a, n, f⟩ :: post)) : Tiled (setFree a f' mem) t h (pre ++ ⟨a, n, f'⟩ :: post) := by
  obtain ⟨k, h1, g1, g2, g3, g4⟩ := Tiled.append.1 hT
  dsimp only at g1 g3 g4
  subst g1
  have hge := g3.ge
  refine Tiled.append.2 ⟨a, h1.congr fun b hb x e1 e2 => ?_, rfl, ⟨?_, setFree_read⟩, g3, g4.congr fun b hb x e1 e2 => ?_⟩
  · have := h1.bounds b hb
    have := this.2.2.1.ge
    exact setFree_other (by omega)
  · show bSize (setFree a f' mem) a = n
    rw [setFree_size]; exact g2.1
  · have := g4.bounds b hb
    exact setFree_other (by omega)

/-- Bytes of a block the program owns. -/
def SameBytes (m m' : Int → UInt8) (o : Owned) : Prop := ∀ x, o.ptr ≤ x → x < o.ptr + o.bytes → m' x = m x

structure BuddyInv (data : Int) (total : Nat) (b : Buddy) (live : List Owned) : Prop where
  head : b.head = data
  tail : b.tail = data + total
  nodup : (live.map Owned.ptr).Nodup
  blocks : ∃ bs, Tiled b.mem (data + total) data bs ∧
    ∀ o ∈ live, ∃ k ∈ bs, k.free = false ∧ k.addr = o.ptr - 16 ∧ o.bytes + 16 ≤ k.size

theorem BuddyInv.same {bs bs' : List Blk} {m m' : Int → UInt8} {live : List Owned}
    (hS : Same m bs m' bs')
    (hl : ∀ o ∈ live, ∃ k ∈ bs, k.free = false ∧ k.addr = o.ptr - 16 ∧ o.bytes + 16 ≤ k.size) :
    (∀ o ∈ live, ∃ k ∈ bs', k.free = false ∧ k.addr = o.ptr - 16 ∧ o.bytes + 16 ≤ k.size) ∧ ∀ o ∈ live, SameBytes m m' o := by
  constructor
  · intro o ho
    obtain ⟨k, h1, h2, h3, h4⟩ := hl o ho
    exact ⟨k, hS.keep k h1 h2, h2, h3, h4⟩
  · intro o ho x hx hx'
    obtain ⟨k, h1, h2, h3, h4⟩ := hl o ho
    exact hS.mem k h1 h2 x (by omega) (by omega)

theorem Spec.BuddyArgs.pow2 {total : Nat} (h : BuddyArgs total) : Pow2 total ∧ total < 2 ^ 63 := by
  obtain ⟨k, h1, h2, h3⟩ := h.pow
  refine ⟨⟨k, h1, h3⟩, ?_⟩
  rw [h3]
  exact Nat.pow_lt_pow_right (by omega) (by omega)

theorem create_binv {data : Int} {total : Nat} (hA : BuddyArgs total) (mem : Int → UInt8) :
    BuddyInv data total (createBuddy data total mem) [] := by
  obtain ⟨hp, hlt⟩ := hA.pow2
  have hsz : bSize (setFree data true (setSize data total mem)) data = total := by
    rw [setFree_size, setSize_read (by omega)]
  refine ⟨rfl, ?_, by simp, [⟨data, total, true⟩], ⟨rfl, ⟨hsz, setFree_read⟩, hp, rfl⟩, by simp⟩
  show nextBuddy _ data = _
  unfold nextBuddy
  rw [hsz]

theorem buddyAlloc_cases {data : Int} {total : Nat} {b : Buddy} {live : List Owned} (hA : BuddyArgs total)
    (hI : BuddyInv data total b live) (size count : Nat) (zero nof : Bool) (hsz : size * count < 2 ^ 62) :
    (∃ mem', ((∀ o, buddyAlloc size count zero nof { b with mem := mix data (data + total) b.mem o } =
          (if nof then .ok (none, { b with mem := mix data (data + total) mem' o }) else .longjmp)) ∧
        ∀ x, x < data ∨ data + total ≤ x → mem' x = b.mem x) ∧
      BuddyInv data total { b with mem := mem' } live ∧ ∀ o ∈ live, SameBytes b.mem mem' o) ∨
    (∃ p b', ((∀ o, buddyAlloc size count zero nof { b with mem := mix data (data + total) b.mem o } =
          .ok (some p, { b' with mem := mix data (data + total) b'.mem o })) ∧
        ∀ x, x < data ∨ data + total ≤ x → b'.mem x = b.mem x) ∧ BuddyInv data total b' (⟨p, size * count⟩ :: live) ∧
      (∀ o ∈ live, SameBytes b.mem b'.mem o) ∧
      (zero = true → ∀ x, p ≤ x → x < p + ((size * count : Nat) : Int) → b'.mem x = 0)) := by
  obtain ⟨hh, ht, hnd, bs, hT, hl⟩ := hI
  obtain ⟨hp, hlt⟩ := hA.pow2
  have hge := hp.ge
  have hm1 : size * count % wordMod = size * count := Nat.mod_eq_of_lt (by unfold wordMod; omega)
  have hm2 : (size * count + 16) % wordMod = size * count + 16 := Nat.mod_eq_of_lt (by unfold wordMod; omega)
  have key : ∃ r mem' bs', ((∀ o, ∃ x, findBestBuddy b.head b.tail (size * count + 16) (mix data (data + total) b.mem o) = .ok x ∧
        (match x.1 with
          | some p => Out.ok (some p, x.2)
          | none => (coalesceBuddies b.head b.tail ((b.tail - b.head).toNat + 1) x.2).bind fun mem =>
              findBestBuddy b.head b.tail (size * count + 16) mem) = .ok (r, mix data (data + total) mem' o)) ∧
        ∀ x, x < data ∨ data + total ≤ x → mem' x = b.mem x) ∧
      Tiled mem' (data + total) data bs' ∧ Same b.mem bs mem' bs' ∧ Cand (size * count + 16) bs' r := by
    rw [hh, ht]
    obtain ⟨r, mem', bs', e1, e2, e3, e4, _⟩ := findBest_spec (size := size * count + 16) (by omega) (by omega) (by omega) (by omega) hT
    cases r with
    | some p => exact ⟨some p, mem', bs', ⟨fun o => ⟨_, e1.run o, rfl⟩, e1.out⟩, e2, e3, e4⟩
    | none =>
      have hle := e2.le
      obtain ⟨mem2, bs2, f1, f2, f3⟩ := coalesce_spec (h := data) (t := data + total) (by omega) (by omega) ((data + total - data).toNat + 1) bs' mem' e2
        (by omega)
      obtain ⟨r, mem3, bs3, g1, g2, g3, g4, _⟩ := findBest_spec (size := size * count + 16) (by omega) (by omega) (by omega) (by omega) f2
      refine ⟨r, mem3, bs3, ⟨fun o => ⟨_, e1.run o, ?_⟩, fun x hx => (g1.out x hx).trans ((f1.2 x hx).trans (e1.out x hx))⟩, g2, e3.trans (f3.toSame.trans g3), g4⟩
      dsimp only
      rw [f1.1 o]
      exact g1.run o
  obtain ⟨r, mem', bs', ⟨hkey, hout⟩, hT', hS, hC⟩ := key
  obtain ⟨hl', hsb⟩ := BuddyInv.same hS hl
  have hrun : ∀ o, buddyAlloc size count zero nof { b with mem := mix data (data + total) b.mem o } = (match r with
      | some p => .ok (some (p + 16), { b with mem := if zero then memZero (p + 16) ((size * count : Nat) : Int) (setFree p false (mix data (data + total) mem' o)) else (setFree p false (mix data (data + total) mem' o)) })
      | none => if nof then .ok (none, { b with mem := mix data (data + total) mem' o }) else .longjmp) := by
    intro o
    obtain ⟨⟨x1, x2⟩, hx, hy⟩ := hkey o
    unfold buddyAlloc
    dsimp only
    rw [hm1, hm2, hx]
    simp only [Out.bind_ok]
    dsimp only at hy
    cases x1 with
    | some p =>
      cases hy
      rfl
    | none =>
      have hy' : (do
          let mem ← coalesceBuddies b.head b.tail ((b.tail - b.head).toNat + 1) x2
          findBestBuddy b.head b.tail (size * count + 16) mem) = Out.ok (r, mix data (data + total) mem' o) := hy
      dsimp only
      rw [hy']
      cases r <;> rfl
  cases r with
  | none =>
    left
    exact ⟨mem', ⟨hrun, hout⟩, ⟨hh, ht, hnd, bs', hT', hl'⟩, hsb⟩
  | some p =>
    right
    obtain ⟨k, hk, hka, hkf, hkn⟩ := hC p rfl
    obtain ⟨pre, post, rfl⟩ := List.append_of_mem hk
    obtain ⟨ka, kn, kf⟩ := k
    dsimp only at hka hkf hkn
    subst hka; subst hkf
    have hge' := (hT'.bounds _ hk).2.2.1.ge
    dsimp only at hge'
    have hTf := setFlag_tiled (f' := false) hT'
    -- blocks in use are other blocks
    have hother : ∀ o ∈ live, ∃ k' ∈ pre ++ ⟨ka, kn, false⟩ :: post, k'.free = false ∧ k'.addr = o.ptr - 16 ∧ o.bytes + 16 ≤ k'.size ∧
        (k'.addr + k'.size ≤ ka ∨ ka + kn ≤ k'.addr) := by
      intro o ho
      obtain ⟨k', h1, h2, h3, h4⟩ := hl' o ho
      have hne : k' ≠ ⟨ka, kn, true⟩ := by rintro rfl; cases h2
      have hap := hT'.apart k' h1 _ hk hne
      refine ⟨k', ?_, h2, h3, h4, hap⟩
      simp only [List.mem_append, List.mem_cons] at h1 ⊢
      rcases h1 with h1 | h1 | h1
      · left; exact h1
      · exact absurd h1 hne
      · right; right; exact h1
    obtain ⟨i1, i2, _⟩ := hT'.bounds _ hk
    dsimp only at i1 i2
    refine ⟨ka + 16, { b with mem := if zero then memZero (ka + 16) ((size * count : Nat) : Int) (setFree ka false mem') else setFree ka false mem' },
      ⟨fun o => ?_, fun x hx => ?_⟩, ⟨hh, ht, ?_, pre ++ ⟨ka, kn, false⟩ :: post, ?_, ?_⟩, ?_, ?_⟩
    · rw [hrun o]
      dsimp only
      rw [setFree_mix i1 (by omega)]
      cases zero with
      | false => rfl
      | true => simp only [if_true]; rw [memZero_mix (by omega) (by omega)]
    · rw [← hout x hx]
      cases zero with
      | false => exact setFree_other (by omega)
      | true =>
        show memZero _ _ _ x = _
        unfold memZero
        rw [if_neg (by omega)]
        exact setFree_other (by omega)
    · simp only [List.map_cons, List.nodup_cons]
      refine ⟨?_, hnd⟩
      intro hin
      obtain ⟨o, ho, he⟩ := List.mem_map.1 hin
      obtain ⟨k', h1, h2, h3, h4, h5⟩ := hother o ho
      omega
    · cases zero with
      | false => exact hTf
      | true =>
        refine hTf.congr fun b hb x h1 h2 => ?_
        show memZero _ _ _ x = _
        unfold memZero
        by_cases he : b = ⟨ka, kn, false⟩
        · subst he
          dsimp only at h1 h2
          rw [if_neg (by omega)]
        · have hap := hTf.apart b hb ⟨ka, kn, false⟩ (by simp) he
          dsimp only at hap
          have := (hTf.bounds b hb).2.2.1.ge
          rw [if_neg (by omega)]
    · intro o ho
      rcases List.mem_cons.1 ho with rfl | ho
      · exact ⟨⟨ka, kn, false⟩, by simp, rfl, by dsimp only; omega, hkn⟩
      · obtain ⟨k', h1, h2, h3, h4, h5⟩ := hother o ho
        exact ⟨k', h1, h2, h3, h4⟩
    · intro o ho x hx1 hx2
      obtain ⟨k', h1, h2, h3, h4, h5⟩ := hother o ho
      have hb := hsb o ho x hx1 hx2
      rw [← hb]
      cases zero with
      | false => exact setFree_other (by omega)
      | true =>
        show memZero _ _ _ x = _
        unfold memZero
        rw [if_neg (by omega)]
        exact setFree_other (by omega)
    · rintro rfl x hx1 hx2
      show memZero _ _ _ x = _
      unfold memZero
      rw [if_pos ⟨hx1, hx2⟩]

theorem buddy_self (data : Int) (total : Nat) (b : Buddy) : { b with mem := mix data (data + total) b.mem b.mem } = b := by
  rw [mix_self]

theorem buddy_out {data : Int} {total : Nat} {b b' : Buddy} (h : ∀ x, x < data ∨ data + total ≤ x → b'.mem x = b.mem x) :
    { b' with mem := mix data (data + total) b'.mem b.mem } = b' := by
  rw [mix_out h]

theorem nodup_ptr {live : List Owned} (hnd : (live.map Owned.ptr).Nodup) {o o' : Owned} (h : o ∈ live) (h' : o' ∈ live)
    (he : o.ptr = o'.ptr) : o = o' :=
  List.inj_on_of_nodup_map hnd h h' he

theorem freeBuddy_spec {data : Int} {total : Nat} {b : Buddy} {live : List Owned} (hA : BuddyArgs total)
    (hI : BuddyInv data total b live) {o : Owned} (ho : o ∈ live) :
    ∃ b', ((∀ u, freeBuddy o.ptr { b with mem := mix data (data + total) b.mem u } =
          .ok { b' with mem := mix data (data + total) b'.mem u }) ∧
        ∀ x, x < data ∨ data + total ≤ x → b'.mem x = b.mem x) ∧ BuddyInv data total b' (live.erase o) ∧ ∀ o' ∈ live, o' ≠ o → SameBytes b.mem b'.mem o' := by
  obtain ⟨hh, ht, hnd, bs, hT, hl⟩ := hI
  obtain ⟨hp, hlt⟩ := hA.pow2
  have hge0 := hp.ge
  obtain ⟨k, hk, hkf, hka, hkn⟩ := hl o ho
  obtain ⟨pre, post, rfl⟩ := List.append_of_mem hk
  obtain ⟨ka, kn, kf⟩ := k
  dsimp only at hka hkf hkn
  subst hkf
  have hTf := setFlag_tiled (f' := true) hT
  obtain ⟨i1, i2, _⟩ := hT.bounds _ hk
  dsimp only at i1 i2
  have hle := hTf.le
  obtain ⟨mem2, bs2, f1, f2, f3⟩ := coalesce_spec (h := data) (t := data + total) (by omega) (by omega) ((data + total - data).toNat + 1) _ _ hTf
    (by omega)
  have hother : ∀ o' ∈ live, o' ≠ o → ∃ k' ∈ pre ++ ⟨ka, kn, true⟩ :: post, k'.free = false ∧ k'.addr = o'.ptr - 16 ∧
      o'.bytes + 16 ≤ k'.size ∧ (k'.addr + k'.size ≤ ka ∨ ka + kn ≤ k'.addr) := by
    intro o' ho' hne
    obtain ⟨k', h1, h2, h3, h4⟩ := hl o' ho'
    have hnk : k' ≠ ⟨ka, kn, false⟩ := by
      rintro rfl
      dsimp only at h3
      exact hne (nodup_ptr hnd ho' ho (by omega))
    have hap := hT.apart k' h1 _ hk hnk
    refine ⟨k', ?_, h2, h3, h4, hap⟩
    simp only [List.mem_append, List.mem_cons] at h1 ⊢
    rcases h1 with h1 | h1 | h1
    · left; exact h1
    · exact absurd h1 hnk
    · right; right; exact h1
  have hndl : live.Nodup := List.Nodup.of_map _ hnd
  have hS := BuddyInv.same (live := live.erase o) f3.toSame (by
    intro o' ho'
    have hm := List.mem_of_mem_erase ho'
    have hne : o' ≠ o := by
      rintro rfl
      exact (List.Nodup.not_mem_erase hndl) ho'
    obtain ⟨k', h1, h2, h3, h4, _⟩ := hother o' hm hne
    exact ⟨k', h1, h2, h3, h4⟩)
  refine ⟨{ b with mem := mem2 }, ⟨fun u => ?_, fun x hx => (f1.2 x hx).trans (setFree_other (by omega))⟩, ⟨hh, ht, ?_, bs2, f2, hS.1⟩, ?_⟩
  · unfold freeBuddy
    dsimp only
    rw [← hka, hh, ht, setFree_mix i1 (by omega), f1.1 u]
    rfl
  · exact hnd.sublist ((List.erase_sublist).map _)
  · intro o' ho' hne x hx1 hx2
    obtain ⟨k', h1, h2, h3, h4, h5⟩ := hother o' ho' hne
    have := hS.2 o' ((List.mem_erase_of_ne hne).2 ho') x hx1 hx2
    show mem2 x = _
    rw [this]
    have hge := (hTf.bounds _ (by simp : (⟨ka, kn, true⟩ : Blk) ∈ pre ++ ⟨ka, kn, true⟩ :: post)).2.2.1.ge
    dsimp only at hge
    exact setFree_other (by omega)

theorem write_binv {data : Int} {total : Nat} {b : Buddy} {live : List Owned} (hI : BuddyInv data total b live) {o : Owned} (ho : o ∈ live)
    {q : Int} {d : List UInt8} (h1 : o.ptr ≤ q) (h2 : q + d.length ≤ o.ptr + o.bytes) :
    BuddyInv data total { b with mem := memWrite q d b.mem } live := by
  obtain ⟨hh, ht, hnd, bs, hT, hl⟩ := hI
  refine ⟨hh, ht, hnd, bs, hT.congr fun k hk x e1 e2 => ?_, hl⟩
  obtain ⟨k', hk', _, g2, g3⟩ := hl o ho
  have hge := (hT.bounds k hk).2.2.1.ge
  show memWrite q d b.mem x = _
  unfold memWrite
  by_cases he : k = k'
  · subst he
    rw [if_neg (by omega)]
  · have := hT.apart k hk k' hk' he
    rw [if_neg (by omega)]

theorem Spec.BHist.inv {data : Int} {total : Nat} {b : Buddy} {live : List Owned} (hA : BuddyArgs total)
    (h : BHist data total b live) : BuddyInv data total b live := by
  induction h with
  | create => exact create_binv hA _
  | @alloc b b' live size count zero nof p _ hsz he ih =>
    rcases buddyAlloc_cases hA ih size count zero nof hsz with ⟨mem', ⟨e1, eo⟩, _⟩ | ⟨p', b'', ⟨e1, eo⟩, e2, _⟩
    · have e1 := e1 b.mem
      rw [buddy_self] at e1
      rw [e1] at he; cases nof <;> cases he
    · have e1 := e1 b.mem
      rw [buddy_self, buddy_out eo] at e1
      rw [e1] at he; cases he; exact e2
  | @allocFailed b b' live size count zero nof _ hsz he ih =>
    rcases buddyAlloc_cases hA ih size count zero nof hsz with ⟨mem', ⟨e1, eo⟩, e2, _⟩ | ⟨p', b'', ⟨e1, eo⟩, e2, _⟩
    · have e1 := e1 b.mem
      rw [buddy_self, mix_out eo] at e1
      rw [e1] at he
      cases nof with
      | false => cases he
      | true => cases he; exact e2
    · have e1 := e1 b.mem
      rw [buddy_self] at e1
      rw [e1] at he; cases he
  | @free b b' live o _ ho he ih =>
    obtain ⟨b'', ⟨e1, eo⟩, e2, _⟩ := freeBuddy_spec hA ih ho
    have e1 := e1 b.mem
    rw [buddy_self, buddy_out eo] at e1
    rw [e1] at he; cases he; exact e2
  | write _ ho h1 h2 ih => exact write_binv ih ho h1 h2

end Flo
