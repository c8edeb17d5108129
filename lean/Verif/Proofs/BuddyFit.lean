import Verif.Proofs.Buddy
/-!
# Buddy allocator: which requests are granted
-/
namespace Flo
open Spec

/-- A free block that is large enough and not the last one is found. -/
theorem buddyAlloc_grants {data : Int} {total : Nat} {b : Buddy} (hA : BuddyArgs total) (hh : b.head = data)
    (ht : b.tail = data + total) {bs : List Blk} (hT : Tiled b.mem (data + total) data bs) {k k' : Blk} (hk : k ∈ bs)
    (hf : k.free = true) (hk' : k' ∈ bs) (hlt : k.addr < k'.addr) (size count : Nat) (zero nof : Bool)
    (hn : size * count + 16 ≤ k.size) : ∃ p b', buddyAlloc size count zero nof b = .ok (some p, b') := by
  obtain ⟨hp, hlt63⟩ := hA.pow2
  have hge := hp.ge
  obtain ⟨i1, i2, _⟩ := hT.bounds k hk
  have hm1 : size * count % wordMod = size * count := Nat.mod_eq_of_lt (by unfold wordMod; omega)
  have hm2 : (size * count + 16) % wordMod = size * count + 16 := Nat.mod_eq_of_lt (by unfold wordMod; omega)
  obtain ⟨r, mem', bs', e1, e2, e3, e4, e5⟩ := findBest_spec (size := size * count + 16) (by omega) (by omega) (by omega) (by omega) hT
  have e := e1.plain
  cases r with
  | none =>
    obtain ⟨pre, _, hpre⟩ := e5 rfl k hk hf hn
    exfalso
    rw [hpre] at hT hk'
    obtain ⟨m, hm1, hm2⟩ := Tiled.append.1 hT
    obtain ⟨j1, _⟩ := hm2
    rcases List.mem_append.1 hk' with h | h
    · have := hm1.bounds k' h
      have := this.2.2.1.ge
      omega
    · have : k' = k := by simpa using h
      rw [this] at hlt; omega
  | some p =>
    unfold buddyAlloc
    dsimp only
    rw [hm1, hm2, hh, ht, e]
    exact ⟨_, _, rfl⟩

/-- Freeing leaves the block inside a free block. -/
theorem freeBuddy_cover {data : Int} {total : Nat} {b : Buddy} {live : List Owned} (hA : BuddyArgs total)
    (hI : BuddyInv data total b live) {o : Owned} (ho : o ∈ live) :
    ∃ b' bs', freeBuddy o.ptr b = .ok b' ∧ b'.head = data ∧ b'.tail = data + total ∧ Tiled b'.mem (data + total) data bs' ∧
      (∀ o' ∈ live, o' ≠ o → ∃ k ∈ bs', k.free = false ∧ k.addr = o'.ptr - 16) ∧
      ∃ k ∈ bs', k.free = true ∧ k.addr ≤ o.ptr - 16 ∧ o.ptr + o.bytes ≤ k.addr + k.size := by
  obtain ⟨hh, ht, hnd, bs, hT, hl⟩ := hI
  obtain ⟨hp, hlt⟩ := hA.pow2
  have hge0 := hp.ge
  obtain ⟨k, hk, hkf, hka, hkn⟩ := hl o ho
  obtain ⟨pre, post, rfl⟩ := List.append_of_mem hk
  obtain ⟨ka, kn, kf⟩ := k
  dsimp only at hka hkf hkn
  subst hkf
  have hTf := setFlag_tiled (f' := true) hT
  have hle := hTf.le
  obtain ⟨mem2, bs2, f1, f2, f3⟩ := coalesce_spec (h := data) (t := data + total) (by omega) (by omega) ((data + total - data).toNat + 1) _ _ hTf
    (by omega)
  have e := f1.1 (setFree ka true b.mem)
  rw [mix_self, mix_out f1.2] at e
  refine ⟨{ b with mem := mem2 }, bs2, ?_, hh, ht, f2, ?_, ?_⟩
  · unfold freeBuddy
    rw [← hka, hh, ht]
    dsimp only
    rw [e]
    rfl
  · intro o' ho' hne
    obtain ⟨k', h1, h2, h3, h4⟩ := hl o' ho'
    have hnk : k' ≠ ⟨ka, kn, false⟩ := by
      rintro rfl
      dsimp only at h3
      exact hne (nodup_ptr hnd ho' ho (by omega))
    refine ⟨k', f3.keep k' ?_ h2, h2, h3⟩
    simp only [List.mem_append, List.mem_cons] at h1 ⊢
    rcases h1 with h1 | h1 | h1
    · left; exact h1
    · exact absurd h1 hnk
    · right; right; exact h1
  · obtain ⟨k, h1, h2, h3, h4⟩ := f3.cover ⟨ka, kn, true⟩ (by simp) rfl
    dsimp only at h3 h4
    exact ⟨k, h1, h2, by omega, by omega⟩

/-! ## Equal requests -/

/-- Free blocks, each smaller than the one before; sizes between `lo` and `hi`. -/
structure Stair (F : List Blk) (lo hi : Nat) : Prop where
  free : ∀ b ∈ F, b.free = true
  desc : F.Pairwise (fun b c => c.size < b.size)
  lo : ∀ b ∈ F, lo ≤ b.size
  hi : ∀ b ∈ F, b.size < hi

theorem splitLoop_stair {size i : Nat} {h t : Int} (hs : 16 ≤ size) (hs' : size < 2 ^ 63) (hlt : t - h < 2 ^ 63) (hi : 2 ^ i ≤ size * 2) :
    ∀ (f j : Nat) (a : Int) (mem : Int → UInt8) (pre post : List Blk), j < f → i ≤ j → (i < j → size * 2 < 2 ^ (i + 1)) →
      Tiled mem t h (pre ++ ⟨a, 2 ^ j, true⟩ :: post) →
      ∃ a' mem' F, splitLoop size f a mem = .ok (a', mem') ∧ Tiled mem' t h ((pre ++ F) ++ ⟨a', 2 ^ i, true⟩ :: post) ∧
        Stair F (2 ^ i) (2 ^ j) := by
  intro f
  induction f with
  | zero => intro j a mem pre post hf; omega
  | succ f ih =>
    intro j a mem pre post hf hij hsp hT
    have hin : (⟨a, 2 ^ j, true⟩ : Blk) ∈ pre ++ ⟨a, 2 ^ j, true⟩ :: post := by simp
    obtain ⟨hb1, hb2, hp, hh, _⟩ := hT.bounds _ hin
    have hsz : bSize mem a = 2 ^ j := hh.1
    have hmod : size * 2 % wordMod = size * 2 := Nat.mod_eq_of_lt (by unfold wordMod; omega)
    dsimp only at hb1 hb2 hp
    have hpge := hp.ge
    by_cases hc : i < j
    · have h1 := hsp hc
      have h2 : 2 ^ (i + 1) ≤ 2 ^ j := Nat.pow_le_pow_right (by omega) hc
      obtain ⟨s1, s2, s3, s4⟩ := split_step hT hlt (by omega)
      obtain ⟨j', rfl⟩ : ∃ j', j = j' + 1 := ⟨j - 1, by omega⟩
      have hj : 2 ^ (j' + 1) / 2 = 2 ^ j' := by rw [pow_succ]; omega
      rw [hj] at s1 s2
      obtain ⟨a', mem', F, e1, e2, e3⟩ := ih j' _ _ _ post (by omega) (by omega) (fun _ => h1) s2
      refine ⟨a', mem', ⟨a, 2 ^ j', true⟩ :: F, ?_, by simpa using e2, ?_⟩
      · rw [splitLoop, hsz, hmod, if_pos (by omega)]
        dsimp only
        rw [hj, s1]
        exact e1
      · have hpow : 2 ^ i ≤ 2 ^ j' := Nat.pow_le_pow_right (by omega) (by omega)
        have hpow2 : 2 ^ (j' + 1) = 2 ^ j' * 2 := pow_succ _ _
        refine ⟨?_, ?_, ?_, ?_⟩
        · intro b hb
          rcases List.mem_cons.1 hb with rfl | hb
          · rfl
          · exact e3.free b hb
        · exact List.pairwise_cons.2 ⟨fun c hc => e3.hi c hc, e3.desc⟩
        · intro b hb
          rcases List.mem_cons.1 hb with rfl | hb
          · exact hpow
          · exact e3.lo b hb
        · intro b hb
          rcases List.mem_cons.1 hb with rfl | hb
          · dsimp only; omega
          · have := e3.hi b hb; omega
    · obtain rfl : i = j := by omega
      refine ⟨a, mem, [], ?_, by simpa using hT, ⟨by simp, by simp, by simp, by simp⟩⟩
      rw [splitLoop, hsz, hmod, if_neg (by omega)]

theorem splitBuddy_stair {size i j : Nat} {h t a : Int} (hs : 16 ≤ size) (hs' : size < 2 ^ 63) (hlt : t - h < 2 ^ 63) (hi : 2 ^ i ≤ size * 2)
    {mem : Int → UInt8} {pre post : List Blk} (hij : i ≤ j) (hsp : i < j → size * 2 < 2 ^ (i + 1)) (hsz : size ≤ 2 ^ i)
    (hT : Tiled mem t h (pre ++ ⟨a, 2 ^ j, true⟩ :: post)) :
    ∃ a' mem' F, splitBuddy a size mem = .ok (some a', mem') ∧ Tiled mem' t h ((pre ++ F) ++ ⟨a', 2 ^ i, true⟩ :: post) ∧
        Stair F (2 ^ i) (2 ^ j) := by
  obtain ⟨hb1, hb2, _, _, _⟩ := hT.bounds ⟨a, 2 ^ j, true⟩ (by simp)
  dsimp only at hb1 hb2
  have hj : j < 65 := by
    by_contra hcon
    have : (2 : Nat) ^ 65 ≤ 2 ^ j := Nat.pow_le_pow_right (by omega) (by omega)
    have : (2 : Nat) ^ 65 = 36893488147419103232 := by norm_num
    omega
  obtain ⟨a', mem', F, e1, e2, e3⟩ := splitLoop_stair hs hs' hlt hi 65 j a mem pre post hj hij hsp hT
  refine ⟨a', mem', F, ?_, e2, e3⟩
  unfold splitBuddy
  rw [e1]
  simp only [Out.bind_ok]
  have : bSize mem' a' = 2 ^ i := (e2.bounds ⟨a', 2 ^ i, true⟩ (by simp)).2.2.2.1.1
  rw [this, if_pos hsz]

/-- The search passes over used blocks of equal size. -/
theorem findLoop_used {size s : Nat} {t : Int} : ∀ (f : Nat) (U : List Blk) (m buddy : Int) (best : Option Int) (mem : Int → UInt8),
    Tiled mem t m U → (∀ b rest, U = b :: rest → buddy = m + b.size) → (∀ b ∈ U, b.free = false ∧ b.size = s) → U.length < f →
    findLoop size t f m buddy best mem = .ok (best, mem) := by
  intro f
  induction f with
  | zero => intro U m buddy best mem _ _ _ hf; omega
  | succ f ih =>
    intro U m buddy best mem hT hb hU hf
    cases U with
    | nil => have : m = t := hT; rw [findLoop, if_neg (by omega)]
    | cons b U =>
      have hbu := hb b U rfl
      cases U with
      | nil =>
        obtain ⟨h1, h2, h3, h4⟩ := hT
        have : m + (b.size : Int) = t := h4
        rw [findLoop, if_neg (by omega)]
      | cons c rest =>
        obtain ⟨h1, h2, h3, h4⟩ := hT
        have hS := h4
        obtain ⟨g1, g2, g3, g4⟩ := h4
        have hbge := h3.ge
        have hcge := g3.ge
        have hle := g4.le
        obtain ⟨u1, u2⟩ := hU b (by simp)
        obtain ⟨u3, u4⟩ := hU c (by simp)
        have q1 : bFree mem m = false := by rw [← h1, h2.2, u1]
        have q2 : bFree mem buddy = false := by rw [hbu, ← g1, g2.2, u3]
        have q3 : bSize mem m = s := by rw [← h1, h2.1, u2]
        have q4 : bSize mem buddy = s := by rw [hbu, ← g1, g2.1, u4]
        rw [findLoop, if_pos (by omega), q1, q2, q3, q4]
        simp only [Bool.false_eq_true, false_and, if_false, lt_irrefl]
        refine ih (c :: rest) buddy _ best mem (by rw [hbu]; exact hS) ?_ (fun b hb => hU b (by simp [hb])) (by simp at hf ⊢; omega)
        intro b' r he
        cases he
        unfold nextBuddy
        rw [q4, u4]

/-- The search through free blocks of decreasing size, followed by used ones, ends with the smallest free block. -/
theorem findLoop_stair {size s : Nat} {t : Int} (hss : size ≤ s) : ∀ (f : Nat) (F : List Blk) (b : Blk) (U : List Blk) (m buddy : Int)
    (best : Option Int) (mem : Int → UInt8),
    Tiled mem t m ((b :: F) ++ U) → buddy = m + b.size → Stair (b :: F) s (2 ^ 63) → (∀ b ∈ U, b.free = false ∧ b.size = s) → U ≠ [] →
    best = none ∨ best = some b.addr → (F ++ U).length + 1 < f →
    findLoop size t f m buddy best mem = .ok (some ((b :: F).getLast (by simp)).addr, mem) := by
  intro f
  induction f with
  | zero => intro F b U m buddy best mem _ _ _ _ _ _ hf; omega
  | succ f ih =>
    intro F b U m buddy best mem hT hbu hF hU hne hbest hf
    obtain ⟨c, rest, hcr⟩ : ∃ c rest, F ++ U = c :: rest := List.exists_cons_of_ne_nil (by simp [hne])
    rw [List.cons_append, hcr] at hT
    obtain ⟨h1, h2, h3, h4⟩ := hT
    have hS := h4
    obtain ⟨g1, g2, g3, g4⟩ := h4
    have hbge := h3.ge
    have hcge := g3.ge
    have hle := g4.le
    have hbf := hF.free b (by simp)
    have hbs := hF.lo b (by simp)
    have hcs : c.size ≤ b.size ∧ ¬(c.free = true ∧ b.size = c.size) := by
      cases F with
      | nil =>
        simp only [List.nil_append] at hcr
        obtain ⟨u1, u2⟩ := hU c (by rw [hcr]; simp)
        rw [u1, u2]; exact ⟨hbs, by simp⟩
      | cons d F =>
        simp only [List.cons_append, List.cons.injEq] at hcr
        obtain ⟨rfl, _⟩ := hcr
        have := (List.pairwise_cons.1 hF.desc).1 d (by simp)
        exact ⟨by omega, by omega⟩
    have q1 : bFree mem m = true := by rw [← h1, h2.2, hbf]
    have q2 : bFree mem buddy = c.free := by rw [hbu, ← g1, g2.2]
    have q3 : bSize mem m = b.size := by rw [← h1, h2.1]
    have q4 : bSize mem buddy = c.size := by rw [hbu, ← g1, g2.1]
    have q5 : (if true = true ∧ size ≤ b.size ∧ betterThan mem b.size best = true then some m else best) = some b.addr := by
      rcases hbest with rfl | rfl
      · rw [if_pos ⟨rfl, by omega, rfl⟩, h1]
      · by_cases hc : true = true ∧ size ≤ b.size ∧ betterThan mem b.size (some b.addr) = true
        · rw [if_pos hc, h1]
        · rw [if_neg hc]
    rw [findLoop, if_pos (by omega), q1, q2, q3, q4, if_neg (by rintro ⟨_, k1, k2⟩; exact hcs.2 ⟨k1, k2⟩)]
    dsimp only
    rw [q5, if_neg (by omega)]
    have hnx : nextBuddy mem buddy = buddy + c.size := by unfold nextBuddy; rw [q4]
    rw [hnx]
    cases F with
    | nil =>
      simp only [List.nil_append] at hcr
      obtain ⟨u1, u2⟩ := hU c (by rw [hcr]; simp)
      rw [u1]
      simp only [Bool.false_eq_true, false_and, if_false]
      rw [← hbu, ← hcr] at hS
      rw [findLoop_used f U buddy _ _ mem hS (by
        intro b' r he
        rw [hcr] at he
        cases he; rfl) hU (by simp at hf ⊢; omega)]
      simp
    | cons d F =>
      simp only [List.cons_append, List.cons.injEq] at hcr
      obtain ⟨rfl, hcr⟩ := hcr
      have hdf := hF.free d (by simp)
      have hds := hF.lo d (by simp)
      have hdlt := (List.pairwise_cons.1 hF.desc).1 d (by simp)
      have hbsz : bSize mem b.addr = b.size := h2.1
      rw [if_pos ⟨hdf, by omega, by unfold betterThan; dsimp only; rw [hbsz]; simpa using hdlt⟩]
      have hbd : buddy = d.addr := by rw [hbu, g1]
      rw [← hbu, ← hcr] at hS
      have := ih F d U buddy (buddy + d.size) (some buddy) mem hS rfl
        ⟨fun x hx => hF.free x (by simp [hx]), (List.pairwise_cons.1 hF.desc).2, fun x hx => hF.lo x (by simp [hx]),
          fun x hx => hF.hi x (by simp [hx])⟩ hU hne (Or.inr (by rw [hbd])) (by simp at hf ⊢; omega)
      rw [this]
      simp

theorem Stair.snoc {F G : List Blk} {b : Blk} {lo hi : Nat} (h : Stair (F ++ [b]) lo hi) (hG : Stair G lo b.size) : Stair (F ++ G) lo hi := by
  have hb := h.hi b (by simp)
  refine ⟨?_, ?_, ?_, ?_⟩
  · intro c hc
    rcases List.mem_append.1 hc with hc | hc
    · exact h.free c (by simp [hc])
    · exact hG.free c hc
  · have hd := List.pairwise_append.1 h.desc
    refine List.pairwise_append.2 ⟨hd.1, hG.desc, fun x hx y hy => ?_⟩
    have := hd.2.2 x hx b (by simp)
    have := hG.hi y hy
    omega
  · intro c hc
    rcases List.mem_append.1 hc with hc | hc
    · exact h.lo c (by simp [hc])
    · exact hG.lo c hc
  · intro c hc
    rcases List.mem_append.1 hc with hc | hc
    · exact h.hi c (by simp [hc])
    · have := hG.hi c hc; omega

theorem findBest_stair {size i : Nat} {h t : Int} (hs : 16 ≤ size) (hs' : size < 2 ^ 63) (hlt : t - h < 2 ^ 63)
    (hi : 2 ^ i ≤ size * 2) (hsz : size ≤ 2 ^ i) {mem : Int → UInt8} {F U : List Blk}
    (hT : Tiled mem t h (F ++ U)) (hF : Stair F (2 ^ i) (2 ^ 63)) (hU : ∀ b ∈ U, b.free = false ∧ b.size = 2 ^ i) (hne : F ≠ [])
    (hone : U = [] → F.length = 1) (hsp : ∀ b ∈ F, 2 ^ i < b.size → size * 2 < 2 ^ (i + 1)) :
    ∃ a mem' F', findBestBuddy h t size mem = .ok (some a, mem') ∧ Tiled mem' t h (F' ++ ⟨a, 2 ^ i, true⟩ :: U) ∧
      Stair F' (2 ^ i) (2 ^ 63) := by
  obtain ⟨G, k, rfl⟩ : ∃ G k, F = G ++ [k] := ⟨F.dropLast, F.getLast hne, (List.dropLast_append_getLast hne).symm⟩
  have hkf := hF.free k (by simp)
  have hkl := hF.lo k (by simp)
  have hk := hT.bounds k (by simp)
  obtain ⟨j, hj5, hj⟩ := hk.2.2.1
  obtain ⟨ka, kn, kf⟩ := k
  dsimp only at hkf hj hkl
  subst hkf; subst hj
  have hij : i ≤ j := (Nat.pow_le_pow_iff_right (by omega)).1 hkl
  have hT' : Tiled mem t h (G ++ ⟨ka, 2 ^ j, true⟩ :: U) := by simpa using hT
  obtain ⟨a', mem', F', e1, e2, e3⟩ := splitBuddy_stair hs hs' hlt hi hij
    (fun hlt => hsp ⟨ka, 2 ^ j, true⟩ (by simp) (Nat.pow_lt_pow_right (by omega) hlt)) hsz hT'
  refine ⟨a', mem', G ++ F', ?_, e2, hF.snoc e3⟩
  unfold findBestBuddy
  by_cases hUe : U = []
  · subst hUe
    have hG : G = [] := by
      have := hone rfl
      simpa using this
    subst hG
    simp only [List.nil_append] at hT'
    obtain ⟨g1, g2, g3, g4⟩ := hT'
    dsimp only at g1
    have g4 : h + ((2 ^ j : Nat) : Int) = t := g4
    have g5 : bSize mem ka = 2 ^ j := g2.1
    have g6 : bFree mem ka = true := g2.2
    rw [if_pos ⟨by unfold nextBuddy; rw [← g1, g5, g1]; exact g4, by rw [← g1]; exact g6⟩, ← g1]
    exact e1
  · obtain ⟨b, F0, hbF⟩ : ∃ b F0, G ++ [⟨ka, 2 ^ j, true⟩] = b :: F0 := List.exists_cons_of_ne_nil (by simp)
    obtain ⟨c, U0, rfl⟩ := List.exists_cons_of_ne_nil hUe
    have hfst := hT.first b (F0 ++ c :: U0) (by rw [hbF]; rfl)
    have hle := hT.le
    have hnt : ¬(nextBuddy mem h = t ∧ bFree mem h = true) := by
      rintro ⟨hn, _⟩
      rw [hfst] at hn
      rw [hbF] at hT
      obtain ⟨_, _, _, g4⟩ := hT
      have := g4.le
      simp only [List.append_eq, List.length_append, List.length_cons] at this
      push_cast at this
      omega
    rw [if_neg hnt]
    rw [hbF] at hT hF
    have hlast : ((b :: F0).getLast (by simp)).addr = ka := by
      have : (b :: F0).getLast (by simp) = ⟨ka, 2 ^ j, true⟩ := by
        simp only [← hbF]
        simp
      rw [this]
    rw [findLoop_stair hsz ((t - h).toNat + 1) F0 b (c :: U0) h _ none mem hT hfst hF hU (by simp) (Or.inl rfl) (by
      rw [hbF] at hle
      simp only [List.length_append, List.length_cons] at hle ⊢
      push_cast at hle
      omega), hlast]
    simp only [Out.bind_ok]
    exact e1

theorem Tiled.hits {m : Int → UInt8} {t : Int} : ∀ {bs : List Blk} {h : Int}, Tiled m t h bs → ∀ x, h ≤ x → x < t →
    ∃ b ∈ bs, b.addr ≤ x ∧ x < b.addr + b.size
  | [], h, hT, x, h1, h2 => by have : h = t := hT; omega
  | b :: bs, h, ⟨g1, g2, g3, g4⟩, x, h1, h2 => by
    by_cases hx : x < h + b.size
    · exact ⟨b, by simp, by omega, by omega⟩
    · obtain ⟨c, hc, k1, k2⟩ := g4.hits x (by omega) h2
      exact ⟨c, by simp [hc], k1, k2⟩

/-- Nothing free stays nothing free. -/
theorem Same.full {m m' : Int → UInt8} {h t : Int} {bs bs' : List Blk} (hS : Same m bs m' bs') (hT : Tiled m t h bs)
    (hT' : Tiled m' t h bs') (hu : ∀ b ∈ bs, b.free = false) : ∀ b ∈ bs', b.free = false := by
  intro k hk
  by_contra hf
  have hf : k.free = true := by simpa using hf
  obtain ⟨k1, k2, k3, _⟩ := hT'.bounds k hk
  have := k3.ge
  obtain ⟨b, hb, b1, b2⟩ := hT.hits k.addr k1 (by omega)
  have hb' := hS.keep b hb (hu b hb)
  have hne : b ≠ k := by rintro rfl; rw [hu b hb] at hf; cases hf
  have := hT'.apart b hb' k hk hne
  omega

theorem buddyAlloc_full {data : Int} {total : Nat} {b : Buddy} (hA : BuddyArgs total) (hh : b.head = data)
    (ht : b.tail = data + total) {bs : List Blk} (hT : Tiled b.mem (data + total) data bs) (hu : ∀ k ∈ bs, k.free = false)
    (size count : Nat) (zero nof : Bool) (hsz : size * count < 2 ^ 62) (p : Int) (b' : Buddy) :
    buddyAlloc size count zero nof b ≠ .ok (some p, b') := by
  obtain ⟨hp, hlt63⟩ := hA.pow2
  have hge := hp.ge
  have hm1 : size * count % wordMod = size * count := Nat.mod_eq_of_lt (by unfold wordMod; omega)
  have hm2 : (size * count + 16) % wordMod = size * count + 16 := Nat.mod_eq_of_lt (by unfold wordMod; omega)
  have none_of : ∀ (mem : Int → UInt8) (bs : List Blk), Tiled mem (data + total) data bs → (∀ k ∈ bs, k.free = false) →
      ∃ mem' bs', findBestBuddy data (data + total) (size * count + 16) mem = .ok (none, mem') ∧ Tiled mem' (data + total) data bs' ∧
        ∀ k ∈ bs', k.free = false := by
    intro mem bs hT hu
    obtain ⟨r, mem', bs', e1, e2, e3, e4, _⟩ := findBest_spec (size := size * count + 16) (by omega) (by omega) (by omega) (by omega) hT
    have hu' := e3.full hT e2 hu
    cases r with
    | none => exact ⟨mem', bs', e1.plain, e2, hu'⟩
    | some q =>
      obtain ⟨k, hk, _, hf, _⟩ := e4 q rfl
      rw [hu' k hk] at hf; cases hf
  obtain ⟨mem1, bs1, e1, e2, e3⟩ := none_of b.mem bs hT hu
  have hle := e2.le
  obtain ⟨mem2, bs2, f1, f2, f3⟩ := coalesce_spec (h := data) (t := data + total) (by omega) (by omega) ((data + total - data).toNat + 1) _ _ e2
    (by omega)
  have f0 := f1.1 mem1
  rw [mix_self, mix_out f1.2] at f0
  obtain ⟨mem3, bs3, g1, _, _⟩ := none_of mem2 bs2 f2 (f3.toSame.full e2 f2 e3)
  unfold buddyAlloc
  dsimp only
  rw [hm1, hm2, hh, ht, e1]
  simp only [Out.bind_ok]
  rw [f0]
  simp only [Out.bind_ok]
  rw [g1]
  simp only [Out.bind_ok]
  cases nof <;> simp

/-! ### The invariant of equal requests -/

structure FillInv (data : Int) (total n i : Nat) (b : Buddy) (live : List Owned) : Prop where
  head : b.head = data
  tail : b.tail = data + total
  blocks : ∃ F U, Tiled b.mem (data + total) data (F ++ U) ∧ Stair F (2 ^ i) (2 ^ 63) ∧ (∀ k ∈ U, k.free = false ∧ k.size = 2 ^ i) ∧
    U.length = live.length ∧ (U = [] → F.length = 1) ∧ ∀ o ∈ live, o.bytes = n ∧ ∃ k ∈ U, k.addr = o.ptr - 16

theorem Tiled.sum {m : Int → UInt8} {t : Int} : ∀ {bs : List Blk} {h : Int}, Tiled m t h bs → h + ((bs.map Blk.size).sum : Nat) = t
  | [], h, hT => by have : h = t := hT; simpa using this
  | b :: bs, h, ⟨g1, g2, g3, g4⟩ => by
    have := g4.sum
    simp only [List.map_cons, List.sum_cons]
    push_cast at this ⊢
    omega

theorem sum_eq_of {U : List Blk} {s : Nat} (h : ∀ k ∈ U, k.size = s) : (U.map Blk.size).sum = U.length * s := by
  induction U with
  | nil => simp
  | cons a U ih =>
    simp only [List.map_cons, List.sum_cons, List.length_cons]
    rw [ih fun k hk => h k (by simp [hk]), h a (by simp)]
    ring

/-- How many blocks are left decides. -/
theorem fill_step {data : Int} {total n i : Nat} {b : Buddy} {live : List Owned} (hA : BuddyArgs total) (hB : BlockFor total n (2 ^ i))
    (hI : FillInv data total n i b live) (size count : Nat) (zero nof : Bool) (hn : size * count = n) :
    (((live.length + 1) * 2 ^ i ≤ total) ∧ ∃ p b', buddyAlloc size count zero nof b = .ok (some p, b') ∧
      FillInv data total n i b' (⟨p, n⟩ :: live)) ∨
    (¬(live.length + 1) * 2 ^ i ≤ total ∧ ∀ p b', buddyAlloc size count zero nof b ≠ .ok (some p, b')) := by
  obtain ⟨hh, ht, F, U, hT, hF, hU, hlen, hone, hl⟩ := hI
  obtain ⟨hp, hlt63⟩ := hA.pow2
  have hge := hp.ge
  have hle62 : total ≤ 2 ^ 62 := by
    obtain ⟨k, _, h2, h3⟩ := hA.pow
    rw [h3]; exact Nat.pow_le_pow_right (by omega) h2
  have hpos : 0 < 2 ^ i := Nat.pos_of_ne_zero (by positivity)
  have hb1 : 2 ^ i ≤ (n + 16) * 2 ∧ n + 16 ≤ 2 ^ i ∧ 2 ^ i ≤ total := by
    rcases hB with ⟨k, h1, h2, h3, h4⟩ | ⟨h1, h2, h3⟩
    · exact ⟨by omega, by omega, h4⟩
    · rw [h1]; exact ⟨by omega, h3, le_refl _⟩
  have hm1 : size * count % wordMod = n := by rw [hn]; exact Nat.mod_eq_of_lt (by unfold wordMod; omega)
  have hm2 : (n + 16) % wordMod = n + 16 := Nat.mod_eq_of_lt (by unfold wordMod; omega)
  have hsum := hT.sum
  have hUs := sum_eq_of (fun k hk => (hU k hk).2)
  rw [List.map_append, List.sum_append, hUs, hlen] at hsum
  have hsum : (F.map Blk.size).sum + live.length * 2 ^ i = total := Int.ofNat.inj (add_left_cancel hsum)
  have hexp : (live.length + 1) * 2 ^ i = live.length * 2 ^ i + 2 ^ i := by ring
  by_cases hFe : F = []
  · right
    subst hFe
    simp only [List.map_nil, List.sum_nil] at hsum
    refine ⟨by omega, fun p b' => ?_⟩
    exact buddyAlloc_full hA hh ht hT (fun k hk => (hU k (by simpa using hk)).1) size count zero nof (by omega) p b'
  · left
    obtain ⟨b0, F0, hb0⟩ := List.exists_cons_of_ne_nil hFe
    have hb0l := hF.lo b0 (by rw [hb0]; simp)
    refine ⟨?_, ?_⟩
    · rw [hb0] at hsum
      simp only [List.map_cons, List.sum_cons] at hsum
      omega
    · have hsp : ∀ k ∈ F, 2 ^ i < k.size → (n + 16) * 2 < 2 ^ (i + 1) := by
        intro k hk hlt
        rcases hB with ⟨_, h1, h2, h3, h4⟩ | ⟨h1, h2, h3⟩
        · rw [pow_succ]; omega
        · obtain ⟨q1, q2, _⟩ := hT.bounds k (by simp [hk])
          omega
      obtain ⟨a, mem', F', e1, e2, e3⟩ := findBest_stair (size := n + 16) (by omega) (by omega) (by omega) hb1.1 hb1.2.1 hT hF hU hFe hone hsp
      have hTf := setFlag_tiled (f' := false) e2
      obtain ⟨i1, i2, i3, _⟩ := e2.bounds ⟨a, 2 ^ i, true⟩ (by simp)
      have i4 := i3.ge
      dsimp only at i1 i2 i4
      refine ⟨a + 16, { b with mem := if zero then memZero (a + 16) ((n : Nat) : Int) (setFree a false mem') else setFree a false mem' }, ?_,
        hh, ht, F', ⟨a, 2 ^ i, false⟩ :: U, ?_, e3, ?_, by simp [hlen], by simp, ?_⟩
      · unfold buddyAlloc
        dsimp only
        rw [hm1, hm2, hh, ht, e1]
        rfl
      · cases zero with
        | false => exact hTf
        | true =>
          refine hTf.congr fun c hc x h1 h2 => ?_
          show memZero _ _ _ x = _
          unfold memZero
          by_cases he : c = ⟨a, 2 ^ i, false⟩
          · subst he
            dsimp only at h1 h2
            rw [if_neg (by omega)]
          · have hap := hTf.apart c hc ⟨a, 2 ^ i, false⟩ (by simp) he
            dsimp only at hap
            have := (hTf.bounds c hc).2.2.1.ge
            have := hb1.2.1
            rw [if_neg (by omega)]
      · intro k hk
        rcases List.mem_cons.1 hk with rfl | hk
        · exact ⟨rfl, rfl⟩
        · exact hU k hk
      · intro o ho
        rcases List.mem_cons.1 ho with rfl | ho
        · exact ⟨rfl, ⟨a, 2 ^ i, false⟩, by simp, by dsimp only; omega⟩
        · obtain ⟨q1, k, q2, q3⟩ := hl o ho
          exact ⟨q1, k, by simp [q2], q3⟩

theorem Spec.BlockFor.pow {total n s : Nat} (hA : BuddyArgs total) (h : BlockFor total n s) : ∃ i, s = 2 ^ i := by
  rcases h with ⟨k, h1, _⟩ | ⟨h1, _⟩
  · exact ⟨k, h1⟩
  · obtain ⟨k, _, _, h3⟩ := hA.pow
    exact ⟨k, by rw [h1, h3]⟩

theorem Spec.Fill.inv {data : Int} {total n i : Nat} {b : Buddy} {live : List Owned} (hA : BuddyArgs total) (hB : BlockFor total n (2 ^ i))
    (h : Fill data total n b live) : FillInv data total n i b live := by
  have hb1 : n + 16 ≤ 2 ^ i ∧ 2 ^ i ≤ total := by
    rcases hB with ⟨k, h1, h2, h3, h4⟩ | ⟨h1, h2, h3⟩
    · exact ⟨by omega, h4⟩
    · rw [h1]; exact ⟨h3, le_refl _⟩
  induction h with
  | @create mem =>
    obtain ⟨hp, hlt⟩ := hA.pow2
    have h1 : bSize (createBuddy data total mem).mem data = total := by
      show bSize (setFree data true (setSize data total mem)) data = _
      rw [setFree_size, setSize_read (by omega)]
    refine ⟨rfl, (create_binv hA mem).tail, [⟨data, total, true⟩], [], ⟨rfl, ⟨h1, setFree_read⟩, hp, rfl⟩, ?_, by simp, by simp, by simp, by simp⟩
    exact ⟨by simp, by simp, by simpa using hb1.2, by simpa using hlt⟩
  | @alloc b b' live size count zero nof p _ hn he ih =>
    rcases fill_step hA hB ih size count zero nof hn with ⟨_, q, b'', e, h⟩ | ⟨_, h⟩
    · rw [e] at he; cases he; exact h
    · exact absurd he (h _ _)
  | @write b live o q bs _ ho h1 h2 ih =>
    obtain ⟨hh, ht, F, U, hT, hF, hU, hlen, hone, hl⟩ := ih
    refine ⟨hh, ht, F, U, hT.congr fun k hk x e1 e2 => ?_, hF, hU, hlen, hone, hl⟩
    obtain ⟨q1, k', q2, q3⟩ := hl o ho
    have hk's := (hU k' q2).2
    have hge := (hT.bounds k hk).2.2.1.ge
    show memWrite _ _ b.mem x = _
    unfold memWrite
    by_cases he : k = k'
    · subst he
      rw [if_neg (by omega)]
    · have := hT.apart k hk k' (by simp [q2]) he
      have := hb1.1
      rw [if_neg (by omega)]

end Flo
