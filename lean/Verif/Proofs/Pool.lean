import Verif.Spec.Pool
import Verif.Proofs.Post
import Mathlib.Tactic.Linarith
import Mathlib.Tactic.Ring
import Mathlib.Data.List.Perm.Basic
import Mathlib.Data.List.Perm.Lattice
/-!
# Pool allocator: the free list and the live chunks partition the pool
-/
namespace Flo
open Spec

theorem le64_length (v : Nat) : (le64 v).length = 8 := by simp [le64]

theorem store64_other {p : Int} {v : Nat} {mem : Int → UInt8} {x : Int} (h : x < p ∨ p + 8 ≤ x) :
    store64 p v mem x = mem x := by
  unfold store64 memWrite
  rw [le64_length]
  rw [if_neg (by omega)]

theorem load64_congr {m m' : Int → UInt8} {p : Int} (h : ∀ x, p ≤ x → x < p + 8 → m x = m' x) : load64 m p = load64 m' p := by
  unfold load64
  rw [h p (by omega) (by omega), h (p + 1) (by omega) (by omega), h (p + 2) (by omega) (by omega),
    h (p + 3) (by omega) (by omega), h (p + 4) (by omega) (by omega), h (p + 5) (by omega) (by omega),
    h (p + 6) (by omega) (by omega), h (p + 7) (by omega) (by omega)]

theorem store64_byte {p : Int} {v : Nat} {mem : Int → UInt8} (i : Nat) (hi : i < 8) :
    (store64 p v mem (p + (i : Int))).toNat = v / 256 ^ i % 256 := by
  unfold store64 memWrite
  rw [le64_length, if_pos (by omega)]
  have : (p + (i : Int) - p).toNat = i := by omega
  rw [this, List.getD_eq_getElem?_getD]
  unfold le64
  rw [List.getElem?_map, List.getElem?_range hi]
  simp

theorem load64_store64 {p : Int} {v : Nat} {mem : Int → UInt8} (hv : v < 2 ^ 64) : load64 (store64 p v mem) p = v := by
  unfold load64
  have h0 := store64_byte (p := p) (v := v) (mem := mem) 0 (by omega)
  have h1 := store64_byte (p := p) (v := v) (mem := mem) 1 (by omega)
  have h2 := store64_byte (p := p) (v := v) (mem := mem) 2 (by omega)
  have h3 := store64_byte (p := p) (v := v) (mem := mem) 3 (by omega)
  have h4 := store64_byte (p := p) (v := v) (mem := mem) 4 (by omega)
  have h5 := store64_byte (p := p) (v := v) (mem := mem) 5 (by omega)
  have h6 := store64_byte (p := p) (v := v) (mem := mem) 6 (by omega)
  have h7 := store64_byte (p := p) (v := v) (mem := mem) 7 (by omega)
  norm_num at h0 h1 h2 h3 h4 h5 h6 h7
  rw [h0, h1, h2, h3, h4, h5, h6, h7]
  omega

/-- The free list: the chunks `cs`, linked through memory. -/
def FreeChain (mem : Int → UInt8) : Int → List Int → Prop
  | h, [] => h = 0
  | h, c :: cs => h = c ∧ FreeChain mem (load64 mem c) cs

theorem FreeChain.congr {m m' : Int → UInt8} : ∀ {cs : List Int} {h : Int}, FreeChain m h cs →
    (∀ c ∈ cs, ∀ x, c ≤ x → x < c + 8 → m' x = m x) → FreeChain m' h cs
  | [], _, hc, _ => hc
  | c :: cs, h, ⟨h1, h2⟩, hm => by
    refine ⟨h1, ?_⟩
    rw [load64_congr (m := m') (m' := m) (hm c (by simp))]
    exact FreeChain.congr h2 fun c' hc' => hm c' (by simp [hc'])

theorem mem_chunks {beg cap chunk c : Int} : c ∈ chunks beg cap chunk ↔ ∃ i : Nat, i < chunkCount cap chunk ∧ c = beg + (i : Int) * chunk := by
  unfold chunks
  simp only [List.mem_map, List.mem_range]
  constructor
  · rintro ⟨i, h, rfl⟩; exact ⟨i, h, rfl⟩
  · rintro ⟨i, h, rfl⟩; exact ⟨i, h, rfl⟩

theorem chunks_apart {beg cap chunk c c' : Int} (hk : 0 < chunk) (h : c ∈ chunks beg cap chunk) (h' : c' ∈ chunks beg cap chunk)
    (hne : c ≠ c') : c + chunk ≤ c' ∨ c' + chunk ≤ c := by
  obtain ⟨i, _, rfl⟩ := mem_chunks.1 h
  obtain ⟨j, _, rfl⟩ := mem_chunks.1 h'
  rcases lt_trichotomy i j with hlt | rfl | hlt
  · left
    have : ((i : Int) + 1) * chunk ≤ (j : Int) * chunk := by
      have : (i : Int) + 1 ≤ j := by omega
      nlinarith
    linarith
  · exact absurd rfl hne
  · right
    have : ((j : Int) + 1) * chunk ≤ (i : Int) * chunk := by
      have : (j : Int) + 1 ≤ i := by omega
      nlinarith
    linarith

theorem chunks_range {beg cap chunk c : Int} (hk : 0 < chunk) (hc : 0 ≤ cap) (h : c ∈ chunks beg cap chunk) :
    beg ≤ c ∧ c + chunk ≤ beg + cap := by
  obtain ⟨i, hi, rfl⟩ := mem_chunks.1 h
  have h0 : 0 ≤ (i : Int) * chunk := mul_nonneg (by omega) hk.le
  have h1 : (i : Int) + 1 ≤ cap / chunk := by
    unfold chunkCount at hi; omega
  have h2 := (Int.le_ediv_iff_mul_le hk).1 h1
  constructor
  · linarith
  · linarith

theorem chunks_nodup {beg cap chunk : Int} (hk : 0 < chunk) : (chunks beg cap chunk).Nodup := by
  unfold chunks
  refine (List.nodup_map_iff_inj_on List.nodup_range).2 fun i _ j _ h => ?_
  have h2 : (i : Int) * chunk = (j : Int) * chunk := by linarith
  have h3 := mul_right_cancel₀ (ne_of_gt hk) h2
  exact_mod_cast h3

structure PInv (beg cap chunk : Int) (pool : Pool) (live : List Int) : Prop where
  args : pool.beg = beg ∧ pool.cap = cap ∧ pool.chunk = chunk
  lists : ∃ cs, FreeChain pool.mem pool.head cs ∧ (cs ++ live).Perm (chunks beg cap chunk)

theorem chain_head_bound {beg cap chunk : Int} {mem : Int → UInt8} {h : Int} {cs : List Int} (hA : PoolArgs beg cap chunk)
    (hc : FreeChain mem h cs) (hin : ∀ c ∈ cs, c ∈ chunks beg cap chunk) : 0 ≤ h ∧ h < 2 ^ 64 := by
  have hk := hA.large
  have hcap := hA.fits
  cases cs with
  | nil => rw [show h = 0 from hc]; norm_num
  | cons c cs =>
    obtain ⟨rfl, _⟩ := hc
    have := chunks_range (by omega) (by omega) (hin h (by simp))
    have := hA.notNull; have := hA.stop
    omega

theorem freeNode_chain {beg cap chunk : Int} {pool : Pool} {cs : List Int} {p : Int} (hA : PoolArgs beg cap chunk)
    (hc : FreeChain pool.mem pool.head cs) (hin : ∀ c ∈ cs, c ∈ chunks beg cap chunk) (hp : p ∈ chunks beg cap chunk)
    (hnot : p ∉ cs) : FreeChain (freePoolNode p pool).mem (freePoolNode p pool).head (p :: cs) := by
  have hk := hA.large
  obtain ⟨h0, h1⟩ := chain_head_bound hA hc hin
  refine ⟨rfl, ?_⟩
  show FreeChain (store64 p pool.head.toNat pool.mem) (load64 (store64 p pool.head.toNat pool.mem) p) cs
  rw [load64_store64 (by omega)]
  have : ((pool.head.toNat : Nat) : Int) = pool.head := by omega
  rw [this]
  refine hc.congr fun c hc' x h1 h2 => store64_other ?_
  have hne : c ≠ p := fun e => hnot (e ▸ hc')
  have := chunks_apart (by omega) (hin c hc') hp hne
  omega

theorem freeNode_inv {beg cap chunk : Int} {pool : Pool} {live : List Int} {p : Int} (hA : PoolArgs beg cap chunk)
    (h : PInv beg cap chunk pool live) (hp : p ∈ live) : PInv beg cap chunk (freePoolNode p pool) (live.erase p) := by
  obtain ⟨args, cs, hc, hperm⟩ := h
  have hk := hA.large
  have hnd : (cs ++ live).Nodup := hperm.nodup_iff.2 (chunks_nodup (by omega))
  refine ⟨args, p :: cs, freeNode_chain hA hc (fun c hc' => hperm.subset (by simp [hc'])) (hperm.subset (by simp [hp])) ?_, ?_⟩
  · intro hmem
    exact (List.nodup_append.1 hnd).2.2 p hmem p hp rfl
  · refine List.Perm.trans ?_ hperm
    refine (List.perm_middle (l₁ := cs) (l₂ := live.erase p) (a := p)).symm.trans ?_
    exact (List.perm_cons_erase hp).symm.append_left cs

theorem create_fold {beg cap chunk : Int} (hA : PoolArgs beg cap chunk) : ∀ (n : Nat) (pool : Pool), n ≤ chunkCount cap chunk →
    pool.beg = beg → pool.cap = cap → pool.chunk = chunk → pool.head = 0 →
    ∃ pool' cs, (List.range n).foldl (fun pool (i : Nat) => freePoolNode (pool.beg + i * pool.chunk) pool) pool = pool' ∧
      pool'.beg = beg ∧ pool'.cap = cap ∧ pool'.chunk = chunk ∧ FreeChain pool'.mem pool'.head cs ∧
      cs.Perm ((List.range n).map (fun (i : Nat) => beg + (i : Int) * chunk)) := by
  intro n
  induction n with
  | zero =>
    intro pool _ h1 h2 h3 h4
    exact ⟨pool, [], rfl, h1, h2, h3, h4, by simp⟩
  | succ n ih =>
    intro pool hn h1 h2 h3 h4
    obtain ⟨pool', cs, he, g1, g2, g3, g4, g5⟩ := ih pool (by omega) h1 h2 h3 h4
    have hk := hA.large
    have hin : ∀ c ∈ cs, c ∈ chunks beg cap chunk := by
      intro c hc
      have := g5.subset hc
      simp only [List.mem_map, List.mem_range] at this
      obtain ⟨i, hi, rfl⟩ := this
      exact mem_chunks.2 ⟨i, by omega, rfl⟩
    have hp : beg + (n : Int) * chunk ∈ chunks beg cap chunk := mem_chunks.2 ⟨n, by omega, rfl⟩
    have hnot : beg + (n : Int) * chunk ∉ cs := by
      intro hc
      have := g5.subset hc
      simp only [List.mem_map, List.mem_range] at this
      obtain ⟨i, hi, he⟩ := this
      have h2 : (i : Int) * chunk = (n : Int) * chunk := by linarith
      have h3 := mul_right_cancel₀ (by omega : chunk ≠ 0) h2
      omega
    refine ⟨_, (beg + (n : Int) * chunk) :: cs, rfl, ?_⟩
    rw [List.range_succ, List.foldl_append, he]
    simp only [List.foldl_cons, List.foldl_nil]
    rw [g1, g3]
    refine ⟨g1, g2, g3, freeNode_chain hA g4 hin hp hnot, ?_⟩
    rw [List.map_append]
    exact (g5.cons _).trans (List.perm_append_singleton _ _).symm

theorem create_inv {beg cap chunk : Int} (hA : PoolArgs beg cap chunk) (mem : Int → UInt8) :
    PInv beg cap chunk (createPool beg cap chunk mem) [] := by
  have hk := hA.large
  have hcap := hA.fits
  have hcnt : (cap.tdiv chunk).toNat = chunkCount cap chunk := by
    unfold chunkCount; rw [Int.tdiv_eq_ediv_of_nonneg (by omega)]
  obtain ⟨pool', cs, he, g1, g2, g3, g4, g5⟩ := create_fold hA (chunkCount cap chunk) ⟨beg, cap, chunk, 0, mem⟩ (le_refl _) rfl
    rfl rfl rfl
  have he' : createPool beg cap chunk mem = pool' := by
    unfold createPool freePool
    dsimp only
    rw [hcnt]; exact he
  rw [he']
  exact ⟨⟨g1, g2, g3⟩, cs, g4, by simpa [chunks] using g5⟩

theorem alloc_inv {beg cap chunk : Int} {pool : Pool} {live : List Int} (hA : PoolArgs beg cap chunk)
    (h : PInv beg cap chunk pool live) (zero nof : Bool) :
    (live.length = chunkCount cap chunk ∧
      poolAlloc zero nof pool = if nof then .ok (none, pool) else .longjmp) ∨
    (live.length < chunkCount cap chunk ∧
      ∃ p pool', poolAlloc zero nof pool = .ok (some p, pool') ∧ PInv beg cap chunk pool' (p :: live) ∧
      (∀ x, x < p ∨ p + chunk ≤ x → pool'.mem x = pool.mem x) ∧
      (zero = true → ∀ x, p ≤ x → x < p + chunk → pool'.mem x = 0)) := by
  obtain ⟨args, cs, hc, hperm⟩ := h
  have hk := hA.large
  have hcap := hA.fits
  have hlen := hperm.length_eq
  have hcl : (chunks beg cap chunk).length = chunkCount cap chunk := by simp [chunks]
  rw [hcl, List.length_append] at hlen
  have hnd : (cs ++ live).Nodup := hperm.nodup_iff.2 (chunks_nodup (by omega))
  cases cs with
  | nil =>
    left
    have h0 : pool.head = 0 := hc
    refine ⟨by simpa using hlen, ?_⟩
    unfold poolAlloc
    rw [if_pos h0]
  | cons c cs =>
    right
    obtain ⟨h1, h2⟩ := hc
    have hcin : c ∈ chunks beg cap chunk := hperm.subset (by simp)
    have hrange := chunks_range (by omega) (by omega) hcin
    have hb := hA.notNull
    have hne : pool.head ≠ 0 := by omega
    refine ⟨by simp at hlen; omega, pool.head, { pool with head := load64 pool.mem pool.head, mem := if zero then memZero pool.head pool.chunk pool.mem else pool.mem }, by unfold poolAlloc; rw [if_neg hne], ⟨args, cs, ?_, ?_⟩, ?_, ?_⟩
    · dsimp only
      rw [h1]
      refine h2.congr fun c' hc' x hx hx' => ?_
      cases zero with
      | false => rfl
      | true =>
        simp only [if_true]
        unfold memZero
        rw [args.2.2]
        have hne' : c' ≠ c := by
          intro e
          have hnd' := (List.nodup_append.1 hnd).1
          rw [List.nodup_cons] at hnd'
          exact hnd'.1 (e ▸ hc')
        have := chunks_apart (by omega) (hperm.subset (by simp [hc'])) hcin hne'
        rw [if_neg (by omega)]
    · rw [h1]
      refine List.Perm.trans ?_ hperm
      exact List.perm_middle
    · intro x hx
      cases zero with
      | false => rfl
      | true => simp only [if_true]; unfold memZero; rw [args.2.2, if_neg (by omega)]
    · rintro rfl x hx hx'
      simp only [if_true]; unfold memZero; rw [args.2.2, if_pos ⟨hx, hx'⟩]

theorem write_inv {beg cap chunk : Int} {pool : Pool} {live : List Int} {p q : Int} {d : List UInt8} (hA : PoolArgs beg cap chunk)
    (h : PInv beg cap chunk pool live) (hp : p ∈ live) (h1 : p ≤ q) (h2 : q + d.length ≤ p + chunk) :
    PInv beg cap chunk { pool with mem := memWrite q d pool.mem } live := by
  obtain ⟨args, cs, hc, hperm⟩ := h
  have hk := hA.large
  have hnd : (cs ++ live).Nodup := hperm.nodup_iff.2 (chunks_nodup (by omega))
  refine ⟨args, cs, hc.congr fun c hc' x hx hx' => ?_, hperm⟩
  have hne : c ≠ p := (List.nodup_append.1 hnd).2.2 c hc' p hp
  have := chunks_apart (by omega) (hperm.subset (by simp [hc'])) (hperm.subset (by simp [hp])) hne
  show memWrite q d pool.mem x = _
  unfold memWrite
  rw [if_neg (by omega)]

theorem Spec.PHist.inv {beg cap chunk : Int} {pool : Pool} {live : List Int} (hA : PoolArgs beg cap chunk)
    (h : PHist beg cap chunk pool live) : PInv beg cap chunk pool live := by
  induction h with
  | create => exact create_inv hA _
  | @alloc pool pool' live zero nof p _ he ih =>
    rcases alloc_inv hA ih zero nof with ⟨_, h1⟩ | ⟨_, p', pool'', h1, h2, _⟩
    · rw [h1] at he; cases nof <;> cases he
    · rw [h1] at he; cases he; exact h2
  | free _ hp ih => exact freeNode_inv hA ih hp
  | write _ hp h1 h2 ih => exact write_inv hA ih hp h1 h2

end Flo
