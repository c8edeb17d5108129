import Verif.Proofs.Msi
import Verif.Proofs.Memory
import Verif.Model.QueryMem
/-!
# The growing set in the arena's memory
-/
namespace Flo
open Spec

/-- The bytes of a set. -/
def SBlk (s : MSet) (x : Int) : Prop := s.buf ≤ x ∧ x < s.buf + 2 * 2 ^ s.exp

/-- The memory at `s` is the set `m`. -/
structure Slots (a : Arena) (s : MSet) (m : U16Set) : Prop where
  exp : s.exp = m.exp
  len : s.len = m.len
  top : s.buf + 2 * 2 ^ s.exp ≤ a.beg
  size : m.buf.length = 2 ^ m.exp
  slots : ∀ i : Nat, i < 2 ^ s.exp → m.buf[i]? = some (read16 a.mem (s.buf + 2 * (i : Int)))

/-- Memory outside of the block is kept, and no memory is allocated. -/
structure InPlace (s : MSet) (a : Arena) (s' : MSet) (a' : Arena) : Prop where
  buf : s'.buf = s.buf
  exp : s'.exp = s.exp
  beg : a'.beg = a.beg
  stop : a'.stop = a.stop
  mem : ∀ x, ¬SBlk s x → a'.mem x = a.mem x

theorem InPlace.refl (s : MSet) (a : Arena) : InPlace s a s a := ⟨rfl, rfl, rfl, rfl, fun _ _ => rfl⟩

theorem SBlk.congr {s s' : MSet} (h1 : s'.buf = s.buf) (h2 : s'.exp = s.exp) (x : Int) : SBlk s' x ↔ SBlk s x := by
  unfold SBlk; rw [h1, h2]

theorem InPlace.trans {s s1 s2 : MSet} {a a1 a2 : Arena} (h : InPlace s a s1 a1) (h' : InPlace s1 a1 s2 a2) : InPlace s a s2 a2 :=
  ⟨h'.buf.trans h.buf, h'.exp.trans h.exp, h'.beg.trans h.beg, h'.stop.trans h.stop,
    fun x hx => (h'.mem x (by rw [SBlk.congr h.buf h.exp]; exact hx)).trans (h.mem x hx)⟩

theorem read16_congr {m m' : Int → UInt8} {p : Int} (h0 : m' p = m p) (h1 : m' (p + 1) = m (p + 1)) : read16 m' p = read16 m p := by
  unfold read16; rw [h0, h1]

theorem two_pow_cast (n : Nat) : ((2 ^ n : Nat) : Int) = 2 ^ n := by push_cast; rfl

theorem slot_in {s : MSet} {i : Nat} (hi : i < 2 ^ s.exp) : SBlk s (s.buf + 2 * (i : Int)) ∧ SBlk s (s.buf + 2 * (i : Int) + 1) := by
  have : (i : Int) < 2 ^ s.exp := by rw [← two_pow_cast]; exact_mod_cast hi
  unfold SBlk
  constructor <;> constructor <;> omega

/-- A set whose bytes are kept is kept. -/
theorem Slots.keep {a a' : Arena} {s : MSet} {m : U16Set} (h : Slots a s m) (hb : a.beg ≤ a'.beg)
    (hk : ∀ x, SBlk s x → a'.mem x = a.mem x) : Slots a' s m := by
  refine ⟨h.exp, h.len, by have := h.top; omega, h.size, fun i hi => ?_⟩
  rw [h.slots i hi]
  obtain ⟨h1, h2⟩ := slot_in hi
  rw [read16_congr (hk _ h1) (hk _ h2)]

theorem Slots.lt {a : Arena} {s : MSet} {m : U16Set} (h : Slots a s m) {i : Nat} (hi : i < 2 ^ s.exp) {v : Nat}
    (hv : m.buf[i]? = some v) : v < 65536 := by
  rw [h.slots i hi] at hv
  injection hv with hv
  have h1 := (a.mem (s.buf + 2 * (i : Int))).toNat_lt
  have h2 := (a.mem (s.buf + 2 * (i : Int) + 1)).toNat_lt
  unfold read16 at hv
  omega

theorem read16_write16 {mem : Int → UInt8} {p : Int} {v : Nat} (hv : v < 65536) : read16 (write16 p v mem) p = v := by
  unfold read16 write16 memWrite
  simp only [List.length_cons, List.length_nil]
  rw [if_pos (by omega), if_pos (by omega)]
  have e0 : (p - p).toNat = 0 := by omega
  have e1 : (p + 1 - p).toNat = 1 := by omega
  rw [e0, e1]
  show (UInt8.ofNat v).toNat + 256 * (UInt8.ofNat (v / 256)).toNat = v
  rw [UInt8.toNat_ofNat', UInt8.toNat_ofNat']
  omega

theorem write16_other {mem : Int → UInt8} {p x : Int} {v : Nat} (h : x < p ∨ p + 2 ≤ x) : write16 p v mem x = mem x := by
  unfold write16 memWrite
  simp only [List.length_cons, List.length_nil]
  rw [if_neg (by omega)]

theorem Slots.slot {a : Arena} {s : MSet} {m : U16Set} (h : Slots a s m) {i : Nat} {v : Nat} (hv : m.buf[i]? = some v) :
    memSlot s i a.mem = .ok v := by
  have hi : i < 2 ^ s.exp := by
    have := (List.getElem?_eq_some_iff.1 hv).1
    rw [h.size, ← h.exp] at this
    exact this
  unfold memSlot
  rw [if_pos hi]
  rw [h.slots i hi] at hv
  injection hv with hv
  rw [hv]

/-- Storing a value in a slot. -/
theorem Slots.store {a : Arena} {s : MSet} {m : U16Set} (h : Slots a s m) {i : Nat} (hi : i < 2 ^ s.exp) {v : Nat} (hv : v < 65536)
    (n : Nat) (hn : s.len + n = m.len + n) :
    Slots { a with mem := write16 (s.buf + 2 * (i : Int)) v a.mem } { s with len := s.len + n } { m with len := m.len + n, buf := m.buf.set i v } ∧
    InPlace s a { s with len := s.len + n } { a with mem := write16 (s.buf + 2 * (i : Int)) v a.mem } := by
  refine ⟨⟨h.exp, hn, h.top, by simp [h.size], fun j hj => ?_⟩, ⟨rfl, rfl, rfl, rfl, fun x hx => ?_⟩⟩
  · dsimp only at hj ⊢
    by_cases hij : j = i
    · subst hij
      rw [read16_write16 hv, List.getElem?_set_self (by rw [h.size, ← h.exp]; exact hi)]
    · rw [List.getElem?_set_ne (fun e => hij e.symm), h.slots j hj]
      congr 1
      apply (read16_congr _ _).symm <;> refine write16_other ?_ <;> omega
  · refine write16_other ?_
    obtain ⟨h1, h2⟩ := slot_in hi
    by_contra hcon
    push_neg at hcon
    rcases (by omega : x = s.buf + 2 * (i : Int) ∨ x = s.buf + 2 * (i : Int) + 1) with rfl | rfl
    · exact hx h1
    · exact hx h2

theorem insertLoop_mem {v : Nat} (hv : v < 65536) {hash : UInt64} : ∀ (f : Nat) (i : UInt32) (s : MSet) (a : Arena) (m : U16Set),
    Slots a s m → ∀ r, msiInsertLoop 0 v hash f i m = .ok r →
    ∃ s' a', memInsertLoop v hash f i s a = .ok (s', a') ∧ Slots a' s' r.2 ∧ InPlace s a s' a' := by
  intro f
  induction f with
  | zero => intro i s a m _ r h; cases h
  | succ f ih =>
    intro i s a m h r hr
    unfold msiInsertLoop at hr
    unfold memInsertLoop
    dsimp only at hr ⊢
    rw [show indexLookup hash s.exp i = indexLookup hash m.exp i by rw [h.exp]]
    cases hx : m.buf[(indexLookup hash m.exp i).toNat]? with
    | none => rw [hx] at hr; cases hr
    | some x =>
      rw [hx] at hr
      dsimp only at hr
      rw [h.slot hx, Out.bind_ok]
      have hi : (indexLookup hash m.exp i).toNat < 2 ^ s.exp := by
        have := (List.getElem?_eq_some_iff.1 hx).1
        rw [h.size] at this
        rw [h.exp]
        exact this
      by_cases h0 : x = 0
      · rw [if_pos h0] at hr ⊢
        cases hr
        obtain ⟨e1, e2⟩ := h.store hi hv 1 (by have := h.len; omega)
        exact ⟨_, _, rfl, e1, e2⟩
      · rw [if_neg h0] at hr ⊢
        by_cases h1 : x = v
        · rw [if_pos h1] at hr ⊢
          cases hr
          exact ⟨s, a, rfl, h, InPlace.refl s a⟩
        · rw [if_neg h1] at hr ⊢
          exact ih _ s a m h r hr

theorem insertSlot_mem {v : Nat} (hv : v < 65536) {s : MSet} {a : Arena} {m : U16Set} (h : Slots a s m) {r : Bool × U16Set}
    (hr : msiInsert 0 v (hashID v) m = .ok r) :
    ∃ s' a', memInsertSlot v s a = .ok (s', a') ∧ Slots a' s' r.2 ∧ InPlace s a s' a' := by
  unfold memInsertSlot
  rw [h.exp]
  exact insertLoop_mem hv _ _ s a m h r hr

/-- The slots of a set, read from slot `i` on. -/
theorem Slots.next {a : Arena} {s : MSet} {m : U16Set} (h : Slots a s m) {i k : Nat} (hk : i + (k + 1) = 2 ^ s.exp) :
    ∃ v, memSlot s i a.mem = .ok v ∧ m.buf.drop i = v :: m.buf.drop (i + 1) ∧ v < 65536 := by
  have hi : i < m.buf.length := by rw [h.size, ← h.exp]; omega
  refine ⟨m.buf[i], h.slot (List.getElem?_eq_getElem hi), List.drop_eq_getElem_cons hi, ?_⟩
  exact h.lt (by omega) (List.getElem?_eq_getElem hi)

theorem Slots.done {a : Arena} {s : MSet} {m : U16Set} (h : Slots a s m) : m.buf.drop (2 ^ s.exp) = [] := by
  rw [List.drop_eq_nil_iff, h.size, h.exp]

theorem rehash_mem {old : MSet} {m0 : U16Set} : ∀ (k i : Nat) (s : MSet) (a : Arena) (m : U16Set), Slots a old m0 →
    i + k = 2 ^ old.exp → (∀ x, SBlk old x → ¬SBlk s x) → Slots a s m →
    ∀ r, rehashLoopWith hashID (m0.buf.drop i) m = .ok r →
    ∃ s' a', memRehashLoop old k i s a = .ok (s', a') ∧ Slots a' s' r ∧ InPlace s a s' a' := by
  intro k
  induction k with
  | zero =>
    intro i s a m h0 hk hd h r hr
    rw [show i = 2 ^ old.exp by omega, h0.done] at hr
    cases hr
    exact ⟨s, a, rfl, h, InPlace.refl s a⟩
  | succ k ih =>
    intro i s a m h0 hk hd h r hr
    obtain ⟨v, e1, e2, e3⟩ := h0.next hk
    unfold memRehashLoop
    rw [e1, Out.bind_ok]
    rw [e2] at hr
    unfold rehashLoopWith at hr
    by_cases hv : v ≠ 0
    · rw [if_pos hv] at hr ⊢
      cases hins : msiInsert 0 v (hashID v) m with
      | ok q =>
        rw [hins] at hr
        obtain ⟨s1, a1, f1, f2, f3⟩ := insertSlot_mem e3 h hins
        rw [f1, Out.bind_ok]
        have hd' : ∀ x, SBlk old x → ¬SBlk s1 x := fun x hx => by rw [SBlk.congr f3.buf f3.exp]; exact hd x hx
        obtain ⟨s', a', g1, g2, g3⟩ := ih (i + 1) s1 a1 q.2
          (h0.keep (by rw [f3.beg]) (fun x hx => f3.mem x (hd x hx))) (by omega) hd' f2 r hr
        exact ⟨s', a', g1, g2, f3.trans g3⟩
      | _ => rw [hins] at hr; cases hr
    · rw [if_neg hv] at hr ⊢
      exact ih (i + 1) s a m h0 (by omega) hd h r hr

/-! ## Steps that may allocate -/

/-- `M` are the bytes below the free part that may change. -/
structure Step (M : Int → Prop) (a a' : Arena) : Prop where
  beg : a.beg ≤ a'.beg
  stop : a'.stop = a.stop
  fit : a.beg ≤ a.stop → a'.beg ≤ a.stop
  mem : ∀ x, ¬M x → (x < a.beg ∨ a.stop ≤ x) → a'.mem x = a.mem x

theorem Step.refl (M : Int → Prop) (a : Arena) : Step M a a := ⟨le_refl _, rfl, id, fun _ _ _ => rfl⟩

theorem Step.trans {M N : Int → Prop} {a b c : Arena} (h : Step M a b) (h' : Step N b c) (hN : ∀ x, N x → M x ∨ (a.beg ≤ x ∧ x < b.beg))
    (hf : a.beg ≤ a.stop) : Step M a c := by
  have hb := h.fit hf
  have h1 := h.stop
  have h2 := h'.stop
  have h3 := h.beg
  refine ⟨le_trans h.beg h'.beg, by omega, fun _ => by have := h'.fit (by omega); omega, fun x hM hx => ?_⟩
  rw [h'.mem x ?_ ?_, h.mem x hM hx]
  · intro hn
    rcases hN x hn with h | h
    · exact hM h
    · omega
  · omega

theorem Step.weaken {M N : Int → Prop} {a b : Arena} (h : Step M a b) (hN : ∀ x, M x → N x) : Step N a b :=
  ⟨h.beg, h.stop, h.fit, fun x hx => h.mem x (fun hm => hx (hN x hm))⟩

theorem InPlace.step {s s' : MSet} {a a' : Arena} (h : InPlace s a s' a') : Step (SBlk s) a a' :=
  ⟨by rw [h.beg], h.stop, by rw [h.beg]; exact id, fun x hx _ => h.mem x hx⟩

/-- Room that is reserved for a set that grows to its largest size. -/
def pot (e : Nat) : Int := 5 * 2 ^ 18 - 5 * 2 ^ e

theorem pot_nonneg {e : Nat} (h : e ≤ 18) : 0 ≤ pot e := by
  have : (2 : Nat) ^ e ≤ 2 ^ 18 := Nat.pow_le_pow_right (by omega) h
  have : ((2 ^ e : Nat) : Int) ≤ ((2 ^ 18 : Nat) : Int) := by exact_mod_cast this
  rw [two_pow_cast, two_pow_cast] at this
  unfold pot
  omega

/-- A computation in memory simulates one on values: it jumps only if there is not enough room. -/
def Sim {α β : Type} (stop lim : Int) (p : Out α) (x : Out β) (R : α → β → Prop) : Prop :=
  ∀ r, p = .ok r → (x = .longjmp ∧ stop < lim) ∨ ∃ b, x = .ok b ∧ R r b

theorem Sim.bind {α β γ δ : Type} {stop lim : Int} {p : Out α} {x : Out β} {R : α → β → Prop} {f : α → Out γ} {g : β → Out δ}
    {Q : γ → δ → Prop} (h : Sim stop lim p x R) (hf : ∀ r b, p = .ok r → x = .ok b → R r b → Sim stop lim (f r) (g b) Q) :
    Sim stop lim (p >>= f) (x >>= g) Q := by
  intro q hq
  cases hp : p with
  | ok r =>
    rw [hp, Out.bind_ok] at hq
    rcases h r hp with ⟨hx, hl⟩ | ⟨b, hb, hR⟩
    · exact Or.inl ⟨by rw [hx]; rfl, hl⟩
    · rw [hb, Out.bind_ok]
      exact hf r b hp hb hR q hq
  | _ => rw [hp] at hq; cases hq

theorem Sim.ok {α β : Type} {stop lim : Int} {r : α} {b : β} {R : α → β → Prop} (h : R r b) : Sim stop lim (.ok r) (.ok b) R := by
  intro q hq; cases hq; exact Or.inr ⟨b, rfl, h⟩

theorem Sim.mono {α β : Type} {stop lim lim' : Int} {p : Out α} {x : Out β} {R Q : α → β → Prop} (h : Sim stop lim p x R)
    (hl : lim ≤ lim') (hR : ∀ r b, R r b → Q r b) : Sim stop lim' p x Q := by
  intro q hq
  rcases h q hq with ⟨h1, h2⟩ | ⟨b, h1, h2⟩
  · exact Or.inl ⟨h1, by omega⟩
  · exact Or.inr ⟨b, h1, hR _ _ h2⟩

/-- The memory at `s` is the set `m`, and `m` is in order. -/
structure Holds (a : Arena) (s : MSet) (m : U16Set) : Prop extends Slots a s m where
  ok : U16OK hashID m

theorem Holds.keep {a a' : Arena} {s : MSet} {m : U16Set} (h : Holds a s m) {M : Int → Prop} (hs : Step M a a')
    (hM : ∀ x, SBlk s x → ¬M x) : Holds a' s m :=
  ⟨h.toSlots.keep hs.beg (fun x hx => hs.mem x (hM x hx) (by have := h.top; have := hx.2; omega)), h.ok⟩

/-- Result of a step that updates a set. -/
structure Upds (M : Int → Prop) (a : Arena) (lim : Int) (m' : U16Set) (r : MSet × Arena) : Prop where
  holds : Holds r.2 r.1 m'
  step : Step M a r.2
  sub : ∀ x, SBlk r.1 x → M x ∨ (a.beg ≤ x ∧ x < r.2.beg)
  room : r.2.beg + pot r.1.exp ≤ lim

theorem isAlign_two : IsAlign 2 := ⟨1, by omega, rfl⟩

/-- A new set. -/
theorem newSet_mem (e : Nat) (he : e < 31) (a : Arena) :
    (memNewSet e a = .longjmp ∧ a.stop < a.beg + 2 * 2 ^ e + 1) ∨
    ∃ s a', memNewSet e a = .ok (s, a') ∧ s.exp = e ∧ Slots a' s ⟨e, 0, List.replicate (2 ^ e) 0⟩ ∧ a.beg ≤ s.buf ∧
      a'.beg = s.buf + 2 * 2 ^ e ∧ s.buf ≤ a.beg + 1 ∧ s.buf % 2 = 0 ∧ a'.beg ≤ a.stop ∧ a'.stop = a.stop ∧
      ∀ x, x < a.beg ∨ a'.beg ≤ x → a'.mem x = a.mem x := by
  unfold memNewSet
  rw [if_neg (by omega)]
  have hp : (0 : Int) < 2 ^ e := by rw [← two_pow_cast]; exact_mod_cast Nat.two_pow_pos e
  rcases arenaAlloc_cases (zero := true) (nof := false) (a := a) (size := 2) (align := 2) (count := 2 ^ e) (by omega) isAlign_two hp.le with
    ⟨p, a', he', hA⟩ | ⟨hlt, he'⟩
  · right
    rw [he']
    refine ⟨⟨p, e, 0⟩, a', rfl, rfl, ⟨rfl, rfl, ?_, by simp, fun i hi => ?_⟩, hA.above, hA.beg, by have := hA.close; show p ≤ _; omega, hA.aligned, ?_, hA.stop, ?_⟩
    · show p + 2 * 2 ^ e ≤ a'.beg; rw [hA.beg]
    · have hz := hA.zeroed rfl
      have hi' : (i : Int) < 2 ^ e := by rw [← two_pow_cast]; exact_mod_cast hi
      dsimp only at hi ⊢
      rw [List.getElem?_replicate, if_pos hi]
      unfold read16
      rw [hz _ (by omega) (by omega), hz _ (by omega) (by omega)]
      rfl
    · rw [hA.beg]; exact hA.fits hp
    · intro x hx
      rcases hx with hx | hx
      · exact hA.below x (by have := hA.above; omega)
      · exact hA.outside x hx
  · left
    rw [he']
    refine ⟨rfl, ?_⟩
    have := Int.emod_lt_of_pos (-a.beg) (show (0 : Int) < 2 by omega)
    omega

/-- Growing. -/
theorem grow_mem {a : Arena} {s : MSet} {m : U16Set} (h : Holds a s m) :
    Sim a.stop (a.beg + pot s.exp) (u16Grow hashID m) (memGrowSet s a) (fun m1 r => Slots r.2 r.1 m1 ∧ Step (SBlk s) a r.2 ∧
      (∀ x, SBlk r.1 x → SBlk s x ∨ (a.beg ≤ x ∧ x < r.2.beg)) ∧ r.2.beg + pot r.1.exp ≤ a.beg + pot s.exp) := by
  intro m1 hm1
  unfold u16Grow at hm1
  unfold memGrowSet
  rw [← h.len, ← h.exp] at hm1
  by_cases hg : s.len ≥ 2 ^ s.exp / 2
  · rw [if_pos hg] at hm1 ⊢
    have hsmall : s.exp ≤ 17 := by
      by_contra hgt
      have h18 : s.exp = 18 := by have := h.ok.small; have := h.exp; omega
      rw [h18, h.len] at hg
      have := h.ok.ge
      have := h.ok.card
      omega
    have hpos : (1 : Int) ≤ 2 ^ s.exp := by
      rw [← two_pow_cast]; exact_mod_cast Nat.two_pow_pos s.exp
    have hsucc : (2 : Int) ^ (s.exp + 1) = 2 * 2 ^ s.exp := by rw [pow_succ]; ring
    have hpot : pot s.exp = pot (s.exp + 1) + 5 * 2 ^ s.exp := by unfold pot; rw [hsucc]; ring
    have hpn := pot_nonneg (e := s.exp + 1) (by omega)
    rcases newSet_mem (s.exp + 1) (by omega) a with ⟨hj, hlt⟩ | ⟨n, a1, e1, e2, e3, e4, e5, e6, e7, e8, e9, e10⟩
    · left
      refine ⟨by rw [hj]; rfl, ?_⟩
      omega
    · right
      rw [e1, Out.bind_ok]
      dsimp only
      have hnew : Msi.new (0 : Nat) (s.exp + 1) = .ok ⟨s.exp + 1, 0, List.replicate (2 ^ (s.exp + 1)) 0⟩ := by
        unfold Msi.new; rw [if_neg (by omega)]
      rw [hnew, Out.bind_ok] at hm1
      have hdis : ∀ x, SBlk s x → ¬SBlk n x := by
        intro x hx hx'
        have := h.top
        have := hx.2
        have := hx'.1
        omega
      have hold : Slots a1 s m := h.toSlots.keep (by omega) (fun x hx => e10 x (Or.inl (by have := h.top; have := hx.2; omega)))
      obtain ⟨s', a', g1, g2, g3⟩ := rehash_mem (2 ^ s.exp) 0 n a1 _ hold (by omega) hdis e3 m1 (by rw [List.drop_zero]; exact hm1)
      refine ⟨(s', a'), g1, g2, ⟨?_, ?_, ?_, ?_⟩, ?_, ?_⟩
      · show a.beg ≤ a'.beg; rw [g3.beg]; omega
      · show a'.stop = a.stop; rw [g3.stop]; omega
      · intro _; show a'.beg ≤ a.stop; rw [g3.beg]; omega
      · intro x hx hx'
        show a'.mem x = a.mem x
        have hn : ¬SBlk n x := by
          intro hb
          have := hb.1
          have hb2 := hb.2
          rw [e2] at hb2
          omega
        rw [g3.mem x hn, e10 x (by omega)]
      · intro x hx
        right
        show a.beg ≤ x ∧ x < a'.beg
        rw [g3.beg]
        have hx : SBlk n x := (SBlk.congr g3.buf g3.exp x).1 hx
        have h2 := hx.2
        rw [e2] at h2
        have := hx.1
        omega
      · show a'.beg + pot s'.exp ≤ _
        rw [g3.beg, g3.exp, e2, hpot]
        omega
  · rw [if_neg hg] at hm1 ⊢
    cases hm1
    exact Or.inr ⟨(s, a), rfl, h.toSlots, Step.refl _ _, fun x hx => Or.inl hx, le_refl _⟩

/-- Inserting a value. -/
theorem insert_mem {a : Arena} {s : MSet} {m : U16Set} (h : Holds a s m) (hf : a.beg ≤ a.stop) {v : Nat} (hv : v < 65536)
    (hx : v ≠ 0 ∨ U16Exact m) {lim : Int} (hl : a.beg + pot s.exp ≤ lim) :
    Sim a.stop lim (u16Insert v m) (memInsert v s a) (Upds (SBlk s) a lim) := by
  have hok : ∀ m', u16Insert v m = .ok m' → U16OK hashID m' := by
    intro m' hm'
    by_cases h0 : v = 0
    · subst h0
      obtain ⟨q, e1, e2, _⟩ := h.ok.insert_zero (hx.resolve_left (by simp))
      unfold u16Insert at hm'
      rw [e1] at hm'; cases hm'; exact e2
    · obtain ⟨q, e1, e2, _⟩ := h.ok.insert h0 hv
      unfold u16Insert at hm'
      rw [e1] at hm'; cases hm'; exact e2
  intro m' hm'
  have hm'' := hok m' hm'
  unfold u16Insert u16InsertWith at hm'
  unfold memInsert
  refine (Sim.bind ((grow_mem h).mono hl (fun _ _ h => h)) (Q := Upds (SBlk s) a lim) ?_ : Sim a.stop lim _ _ _) m' hm'
  rintro m1 ⟨s1, a1⟩ hgm - ⟨g1, g2, g3, g4⟩ q hq
  dsimp only at g1 g2 g3 g4 ⊢
  cases hins : msiInsert 0 v (hashID v) m1 with
  | ok r =>
    rw [hins] at hq
    cases hq
    obtain ⟨s2, a2, f1, f2, f3⟩ := insertSlot_mem hv g1 hins
    refine Or.inr ⟨(s2, a2), f1, ⟨f2, ?_⟩, g2.trans f3.step g3 hf, ?_, ?_⟩
    · show U16OK hashID r.2
      have : u16Insert v m = .ok r.2 := by
        unfold u16Insert u16InsertWith
        rw [hgm, Out.bind_ok, hins]; rfl
      exact hok _ this
    · intro x hx
      show SBlk s x ∨ (a.beg ≤ x ∧ x < a2.beg)
      rw [f3.beg]
      exact g3 x ((SBlk.congr f3.buf f3.exp x).1 hx)
    · show a2.beg + pot s2.exp ≤ lim
      rw [f3.beg, f3.exp]
      omega
  | _ => rw [hins] at hq; cases hq

end Flo
