import Verif.Proofs.Pool
import Verif.Proofs.Sat
/-!
# The pool allocator (C51), resetting a pool (C64)
-/
namespace Flo
open Spec

/-- C51: after any history the live chunks are different chunks of the pool: they lie inside the buffer, at multiples of
the chunk size, and no two of them overlap. -/
theorem C51_live (buffer cap chunk : Int) (pool : Pool) (live : List Int) (hA : PoolArgs buffer cap chunk)
    (h : PHist buffer cap chunk pool live) :
    live.Nodup ∧
    (∀ p ∈ live, buffer ≤ p ∧ p + chunk ≤ buffer + cap ∧ chunk ∣ p - buffer) ∧
    (∀ p ∈ live, ∀ q ∈ live, p ≠ q → p + chunk ≤ q ∨ q + chunk ≤ p) := by
  obtain ⟨_, cs, _, hperm⟩ := h.inv hA
  have hk := hA.large
  have hcap := hA.fits
  have hnd : (cs ++ live).Nodup := hperm.nodup_iff.2 (chunks_nodup (by omega))
  refine ⟨(List.nodup_append.1 hnd).2.1, fun p hp => ?_, fun p hp q hq hne => ?_⟩
  · have hin := hperm.subset (List.mem_append_right cs hp)
    obtain ⟨h1, h2⟩ := chunks_range (by omega) (by omega) hin
    refine ⟨h1, h2, ?_⟩
    obtain ⟨i, _, rfl⟩ := mem_chunks.1 hin
    exact ⟨i, by ring⟩
  · exact chunks_apart (by omega) (hperm.subset (List.mem_append_right cs hp)) (hperm.subset (List.mem_append_right cs hq)) hne

/-- C51: an allocation fails exactly when all `cap / chunk` chunks are live; otherwise it returns a chunk of the pool that
overlaps no live chunk, changes no byte outside that chunk, and zeroes it if that was asked for. -/
theorem C51_alloc (buffer cap chunk : Int) (pool : Pool) (live : List Int) (hA : PoolArgs buffer cap chunk)
    (h : PHist buffer cap chunk pool live) (zero nof : Bool) :
    (live.length = chunkCount cap chunk ∧
      poolAlloc zero nof pool = if nof then .ok (none, pool) else .longjmp) ∨
    (live.length < chunkCount cap chunk ∧
      ∃ p pool', poolAlloc zero nof pool = .ok (some p, pool') ∧
      buffer ≤ p ∧ p + chunk ≤ buffer + cap ∧
      (∀ q ∈ live, p + chunk ≤ q ∨ q + chunk ≤ p) ∧
      (∀ x, x < p ∨ p + chunk ≤ x → pool'.mem x = pool.mem x) ∧
      (zero = true → ∀ x, p ≤ x → x < p + chunk → pool'.mem x = 0)) := by
  rcases alloc_inv hA (h.inv hA) zero nof with h1 | ⟨hl, p, pool', h1, h2, h3, h4⟩
  · exact Or.inl h1
  · right
    have hH := h.alloc h1
    obtain ⟨g1, g2, g3⟩ := C51_live buffer cap chunk pool' (p :: live) hA hH
    have gp := g2 p (by simp)
    refine ⟨hl, p, pool', h1, gp.1, gp.2.1, fun q hq => ?_, h3, h4⟩
    refine g3 p (by simp) q (by simp [hq]) ?_
    rintro rfl
    rw [List.nodup_cons] at g1
    exact g1.1 hq

/-- C51: freeing a chunk changes no byte of the other live chunks, and makes room for one more allocation. -/
theorem C51_free (buffer cap chunk : Int) (pool : Pool) (live : List Int) (hA : PoolArgs buffer cap chunk)
    (h : PHist buffer cap chunk pool live) (p : Int) (hp : p ∈ live) :
    (∀ q ∈ live, q ≠ p → ∀ x, q ≤ x → x < q + chunk → (freePoolNode p pool).mem x = pool.mem x) ∧
    ∀ zero nof, ∃ q pool', poolAlloc zero nof (freePoolNode p pool) = .ok (some q, pool') := by
  obtain ⟨g1, g2, g3⟩ := C51_live buffer cap chunk pool live hA h
  constructor
  · intro q hq hne x h1 h2
    have hk := hA.large
    have := g3 q hq p hp hne
    exact store64_other (by omega)
  · intro zero nof
    have hlen : (live.erase p).length < chunkCount cap chunk := by
      obtain ⟨_, cs, _, hperm⟩ := h.inv hA
      have hl := hperm.length_eq
      have hcl : (chunks buffer cap chunk).length = chunkCount cap chunk := by simp [chunks]
      rw [hcl, List.length_append] at hl
      have := List.length_erase_of_mem hp
      have : 0 < live.length := List.length_pos_of_mem hp
      omega
    rcases C51_alloc buffer cap chunk _ _ hA (h.free hp) zero nof with ⟨h1, _⟩ | ⟨_, q, pool', h1, _⟩
    · omega
    · exact ⟨q, pool', h1⟩

/-- Allocating `n` chunks in a row. -/
def allocN : Nat → Pool → Out (List Int × Pool)
  | 0, pool => .ok ([], pool)
  | n + 1, pool => do
    let (p, pool) ← poolAlloc false false pool
    match p with
    | some p => do
      let (ps, pool) ← allocN n pool
      .ok (p :: ps, pool)
    | none => .ub .nullDeref

/-- The theorems above apply: three of the four chunks of a pool are allocated; the buffer was not zero before. -/
theorem C51_example :
    ∃ (pool : Pool) (live : List Int), PoolArgs 4096 64 16 ∧ PHist 4096 64 16 pool live ∧ live = [4112, 4128, 4144] := by
  have h0 : PHist 4096 64 16 (createPool 4096 64 16 (fun _ => 255)) [] := .create
  obtain ⟨⟨p1, q1⟩, e1, f1⟩ := okAnd_ex (x := poolAlloc false false (createPool 4096 64 16 (fun _ => 255)))
    (p := fun v => decide (v.1 = some 4144 ∧
      okAnd (poolAlloc true false v.2) (fun w => decide (w.1 = some 4128 ∧
        okAnd (poolAlloc true true w.2) (fun u => decide (u.1 = some 4112)) = true)) = true))
    (by decide +kernel)
  obtain ⟨rfl, f1⟩ := of_decide_eq_true f1
  obtain ⟨⟨p2, q2⟩, e2, f2⟩ := okAnd_ex f1
  obtain ⟨rfl, f2⟩ := of_decide_eq_true f2
  obtain ⟨⟨p3, q3⟩, e3, f3⟩ := okAnd_ex f2
  have f3 := of_decide_eq_true f3
  dsimp only at f3
  subst f3
  exact ⟨q3, _, ⟨by decide, by decide, by decide, by decide⟩, ((h0.alloc e1).alloc e2).alloc e3, rfl⟩

/-- C64 (partial): resetting a pool while all its chunks are live makes all of them available again, each once.  Missing: a
pool that still has free chunks, see `C64_violated`. -/
theorem C64_reset_all_live_partial (buffer cap chunk : Int) (pool : Pool) (live : List Int) (hA : PoolArgs buffer cap chunk)
    (h : PHist buffer cap chunk pool live) (hall : live.length = chunkCount cap chunk) :
    ∃ mem, freePool pool = createPool buffer cap chunk mem := by
  obtain ⟨⟨h1, h2, h3⟩, cs, hc, hperm⟩ := h.inv hA
  have hl := hperm.length_eq
  have hcl : (chunks buffer cap chunk).length = chunkCount cap chunk := by simp [chunks]
  rw [hcl, List.length_append] at hl
  have hcs : cs = [] := List.eq_nil_of_length_eq_zero (by omega)
  subst hcs
  have h0 : pool.head = 0 := hc
  refine ⟨pool.mem, ?_⟩
  unfold createPool
  rw [← h0, ← h1, ← h2, ← h3]

/-- C64 (violated): resetting a pool that has free chunks builds a cyclic free list; the same chunk is then handed out twice, so
two live chunks are the same memory. -/
theorem C64_violated :
    ∃ (pool : Pool), PoolArgs 4096 64 16 ∧ PHist 4096 64 16 pool [] ∧
      ∃ ps pool', allocN 6 (freePool pool) = .ok (ps, pool') ∧ ps = [4144, 4128, 4112, 4096, 4144, 4128] := by
  refine ⟨createPool 4096 64 16 (fun _ => 0), ⟨by decide, by decide, by decide, by decide⟩, .create, ?_⟩
  obtain ⟨⟨ps, q⟩, e1, f1⟩ := okAnd_ex (x := allocN 6 (freePool (createPool 4096 64 16 (fun _ => 0))))
    (p := fun v => decide (v.1 = [4144, 4128, 4112, 4096, 4144, 4128])) (by decide +kernel)
  exact ⟨ps, q, e1, of_decide_eq_true f1⟩

/-- A list of chunks linked through memory, the last one pointing to `e`. -/
def LinkedTo (mem : Int → UInt8) (e : Int) : Int → List Int → Prop
  | h, [] => h = e
  | h, c :: cs => h = c ∧ LinkedTo mem e (load64 mem c) cs

theorem LinkedTo.congr {m m' : Int → UInt8} {e : Int} : ∀ {cs : List Int} {h : Int}, LinkedTo m e h cs →
    (∀ c ∈ cs, ∀ x, c ≤ x → x < c + 8 → m' x = m x) → LinkedTo m' e h cs
  | [], _, hc, _ => hc
  | c :: cs, h, ⟨h1, h2⟩, hm => by
    refine ⟨h1, ?_⟩
    rw [load64_congr (m := m') (m' := m) (hm c (by simp))]
    exact LinkedTo.congr h2 fun c' hc' => hm c' (by simp [hc'])

theorem reset_links {beg cap chunk : Int} (hA : PoolArgs beg cap chunk) (e : Int) (he : 0 ≤ e ∧ e < 2 ^ 64) :
    ∀ (n : Nat) (pool : Pool), n ≤ chunkCount cap chunk → pool.beg = beg → pool.chunk = chunk → pool.head = e →
    ∃ pool', (List.range n).foldl (fun pool (i : Nat) => freePoolNode (pool.beg + i * pool.chunk) pool) pool = pool' ∧
      pool'.beg = beg ∧ pool'.chunk = chunk ∧
      LinkedTo pool'.mem e pool'.head ((List.range n).map (fun (i : Nat) => beg + (i : Int) * chunk)).reverse ∧
      (0 ≤ pool'.head ∧ pool'.head < 2 ^ 64) := by
  intro n
  induction n with
  | zero => intro pool _ h1 h2 h3; exact ⟨pool, rfl, h1, h2, h3, by rw [h3]; exact he⟩
  | succ n ih =>
    intro pool hn h1 h2 h3
    obtain ⟨pool', e1, g1, g2, g3, g4⟩ := ih pool (by omega) h1 h2 h3
    have hk := hA.large
    have hcap := hA.fits
    have hp : beg + (n : Int) * chunk ∈ chunks beg cap chunk := mem_chunks.2 ⟨n, by omega, rfl⟩
    have hr := chunks_range (by omega) (by omega) hp
    have hs := hA.stop
    have hz := hA.notNull
    refine ⟨_, rfl, ?_⟩
    rw [List.range_succ, List.foldl_append, e1]
    simp only [List.foldl_cons, List.foldl_nil]
    rw [g1, g2]
    refine ⟨g1, g2, ?_, ⟨?_, ?_⟩⟩
    · rw [List.map_append, List.reverse_append]
      refine ⟨rfl, ?_⟩
      show LinkedTo (store64 _ pool'.head.toNat pool'.mem) e (load64 (store64 _ pool'.head.toNat pool'.mem) _) _
      rw [load64_store64 (by omega)]
      have : ((pool'.head.toNat : Nat) : Int) = pool'.head := by omega
      rw [this]
      refine g3.congr fun c hc x h1 h2 => store64_other ?_
      simp only [List.mem_reverse, List.mem_map, List.mem_range] at hc
      obtain ⟨i, hi, rfl⟩ := hc
      have hne : beg + (i : Int) * chunk ≠ beg + (n : Int) * chunk := by
        intro h
        have h2 : (i : Int) * chunk = (n : Int) * chunk := by linarith
        have h3 := mul_right_cancel₀ (by omega : chunk ≠ 0) h2
        omega
      have := chunks_apart (by omega) (mem_chunks.2 ⟨i, by omega, rfl⟩) hp hne
      omega
    · show 0 ≤ beg + (n : Int) * chunk
      omega
    · show beg + (n : Int) * chunk < 2 ^ 64
      omega

theorem allocN_links {e : Int} : ∀ (cs : List Int) (pool : Pool), (∀ c ∈ cs, c ≠ 0) → LinkedTo pool.mem e pool.head cs →
    ∃ pool', allocN cs.length pool = .ok (cs, pool') ∧ pool'.head = e ∧ pool'.mem = pool.mem
  | [], pool, _, h => ⟨pool, rfl, h, rfl⟩
  | c :: cs, pool, hz, ⟨h1, h2⟩ => by
    have hc := hz c (by simp)
    obtain ⟨pool', e1, e2, e3⟩ := allocN_links cs { pool with head := load64 pool.mem c } (fun c hc => hz c (by simp [hc])) h2
    refine ⟨pool', ?_, e2, e3⟩
    simp only [List.length_cons, allocN, poolAlloc, h1, if_neg hc, Out.bind_ok]
    simp only [Bool.false_eq_true, if_false]
    rw [e1]
    rfl

theorem allocN_add : ∀ (m n : Nat) (pool pool' pool'' : Pool) (ps qs : List Int), allocN m pool = .ok (ps, pool') →
    allocN n pool' = .ok (qs, pool'') → allocN (m + n) pool = .ok (ps ++ qs, pool'')
  | 0, n, pool, pool', pool'', ps, qs, h1, h2 => by
    simp only [allocN, Out.ok.injEq, Prod.mk.injEq] at h1
    obtain ⟨rfl, rfl⟩ := h1
    rw [Nat.zero_add]; exact h2
  | m + 1, n, pool, pool', pool'', ps, qs, h1, h2 => by
    rw [show m + 1 + n = (m + n) + 1 by omega]
    simp only [allocN] at h1 ⊢
    cases hp : poolAlloc false false pool with
    | ok v =>
      obtain ⟨p, pl⟩ := v
      rw [hp] at h1
      simp only [Out.bind_ok] at h1 ⊢
      cases p with
      | none => cases h1
      | some p =>
        simp only [Out.bind_eq_ok] at h1
        obtain ⟨⟨ps', pl'⟩, h3, h4⟩ := h1
        cases h4
        simp only [allocN_add m n pl pl' pool'' ps' qs h3 h2, Out.bind_ok, List.cons_append]
    | ub w => rw [hp] at h1; cases h1
    | longjmp => rw [hp] at h1; cases h1
    | hang => rw [hp] at h1; cases h1

/-- C64 exactly, for a pool that still has free chunks: after the reset the pool hands out every chunk once, from the last to
the first, then the chunk that was next to be handed out before the reset a second time, and it never runs out of chunks. -/
theorem C64_reset_exact_partial (buffer cap chunk : Int) (pool : Pool) (live : List Int) (hA : PoolArgs buffer cap chunk)
    (h : PHist buffer cap chunk pool live) (hfree : live.length < chunkCount cap chunk) :
    (∃ p pool1 pool', poolAlloc false false pool = .ok (some p, pool1) ∧ p ∈ chunks buffer cap chunk ∧
      allocN (chunkCount cap chunk + 1) (freePool pool) = .ok ((chunks buffer cap chunk).reverse ++ [p], pool')) ∧
    ∀ k, ∃ ps pool', allocN k (freePool pool) = .ok (ps, pool') ∧ ps.length = k := by
  obtain ⟨⟨h1, h2, h3⟩, cs, hc, hperm⟩ := h.inv hA
  have hk := hA.large
  have hcap := hA.fits
  have hl := hperm.length_eq
  have hcl : (chunks buffer cap chunk).length = chunkCount cap chunk := by simp [chunks]
  rw [hcl, List.length_append] at hl
  obtain ⟨p, cs', rfl⟩ : ∃ p cs', cs = p :: cs' := List.exists_cons_of_ne_nil (by rintro rfl; simp at hl; omega)
  obtain ⟨hhead, hc⟩ := hc
  have hpin : p ∈ chunks buffer cap chunk := hperm.subset (by simp)
  have hpos : ∀ c ∈ chunks buffer cap chunk, 0 < c ∧ c < 2 ^ 64 := by
    intro c hc
    have := chunks_range (by omega) (by omega) hc
    have := hA.notNull; have := hA.stop
    omega
  have hpp := hpos p hpin
  have hcnt : (pool.cap.tdiv pool.chunk).toNat = chunkCount cap chunk := by
    unfold chunkCount; rw [h2, h3, Int.tdiv_eq_ediv_of_nonneg (by omega)]
  obtain ⟨pool', e1, g1, g2, g3, g4⟩ := reset_links hA p ⟨by omega, hpp.2⟩ (chunkCount cap chunk) pool (le_refl _) h1 h3 hhead
  have hreset : freePool pool = pool' := by unfold freePool; rw [hcnt]; exact e1
  rw [hreset]
  have g3 : LinkedTo pool'.mem p pool'.head (chunks buffer cap chunk).reverse := g3
  obtain ⟨pool2, a1, a2, a3⟩ := allocN_links _ pool' (fun c hc => (ne_of_gt (hpos c (by simpa using hc)).1)) g3
  rw [List.length_reverse, hcl] at a1
  -- every link leads to a chunk
  have hnext : ∀ (cs : List Int) (h : Int), LinkedTo pool'.mem p h cs → (∀ c ∈ cs, c ∈ chunks buffer cap chunk) →
      h ∈ chunks buffer cap chunk ∧ ∀ c ∈ cs, ((load64 pool'.mem c : Nat) : Int) ∈ chunks buffer cap chunk := by
    intro cs
    induction cs with
    | nil => intro h hh _; exact ⟨by rw [show h = p from hh]; exact hpin, by simp⟩
    | cons c cs ih =>
      intro h hh hin
      obtain ⟨r1, r2⟩ := ih _ hh.2 (fun c hc => hin c (by simp [hc]))
      refine ⟨by rw [hh.1]; exact hin c (by simp), ?_⟩
      intro c' hc'
      rcases List.mem_cons.1 hc' with rfl | hc'
      · exact r1
      · exact r2 c' hc'
  obtain ⟨r1, r2⟩ := hnext _ _ g3 (fun c hc => by simpa using hc)
  refine ⟨?_, ?_⟩
  · refine ⟨p, { pool with head := load64 pool.mem p }, { pool2 with head := load64 pool2.mem p }, ?_, hpin, ?_⟩
    · unfold poolAlloc
      rw [hhead, if_neg (by omega)]
      simp
    · refine allocN_add _ 1 _ _ _ _ _ a1 ?_
      simp only [allocN, poolAlloc, a2, if_neg (show p ≠ 0 by omega), Out.bind_ok]
      simp
  · intro k
    have main : ∀ (k : Nat) (q : Pool), q.mem = pool'.mem → q.head ∈ chunks buffer cap chunk →
        ∃ ps q', allocN k q = .ok (ps, q') ∧ ps.length = k := by
      intro k
      induction k with
      | zero => intro q _ _; exact ⟨[], q, rfl, rfl⟩
      | succ k ih =>
        intro q hm hq
        have hz := hpos _ hq
        obtain ⟨ps, q', e, hl⟩ := ih { q with head := load64 q.mem q.head } hm (by
          show ((load64 q.mem q.head : Nat) : Int) ∈ _
          rw [hm]; exact r2 _ (by simpa using hq))
        refine ⟨q.head :: ps, q', ?_, by simp [hl]⟩
        simp only [allocN, poolAlloc, if_neg (show q.head ≠ 0 by omega), Out.bind_ok]
        simp only [Bool.false_eq_true, if_false]
        rw [e]
        rfl
    exact main k pool' rfl r1

/-- non-vacuity: three of four chunks are live. -/
example : ∃ (pool : Pool) (live : List Int), PoolArgs 4096 64 16 ∧ PHist 4096 64 16 pool live ∧
    live.length < chunkCount 64 16 := by
  obtain ⟨pool, live, h1, h2, rfl⟩ := C51_example
  exact ⟨pool, _, h1, h2, by decide⟩

end Flo
