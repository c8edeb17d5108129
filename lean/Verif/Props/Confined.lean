import Verif.Props.Buddy
import Verif.Props.Pool
/-!
# The allocators read and write only the memory they manage (C75)

`mix lo hi inside outside` is memory that holds `inside` between `lo` and `hi` and `outside` elsewhere.  Replacing
everything outside the managed memory changes neither what an operation returns nor what it leaves inside: it does not
read there; and what is outside stays as it was: it does not write there.
-/
namespace Flo
open Spec

/-- C75: creating a buddy allocator. -/
theorem C75_buddy_create (data : Int) (total : Nat) (mem other : Int → UInt8) (hA : BuddyArgs total) :
    createBuddy data total (mix data (data + total) mem other) =
      { createBuddy data total mem with mem := mix data (data + total) (createBuddy data total mem).mem other } ∧
    ∀ x, x < data ∨ data + total ≤ x → (createBuddy data total mem).mem x = mem x := by
  obtain ⟨hp, hlt⟩ := hA.pow2
  have hge := hp.ge
  constructor
  · unfold createBuddy
    dsimp only
    rw [setSize_mix (le_refl _) (by omega), setFree_mix (le_refl _) (by omega), nextBuddy_mix (le_refl _) (by omega)]
  · intro x hx
    show setFree data true (setSize data total mem) x = _
    rw [setFree_other (by omega), setSize_other (by omega)]

/-- C75: allocating from a buddy allocator, after any history. -/
theorem C75_buddy_alloc (data : Int) (total : Nat) (b : Buddy) (live : List Owned) (hA : BuddyArgs total)
    (h : BHist data total b live) (size count : Nat) (zero nof : Bool) (hsz : size * count < 2 ^ 62) (other : Int → UInt8) :
    (buddyAlloc size count zero nof b = .longjmp ∧
      buddyAlloc size count zero nof { b with mem := mix data (data + total) b.mem other } = .longjmp) ∨
    (∃ r b', buddyAlloc size count zero nof b = .ok (r, b') ∧
      buddyAlloc size count zero nof { b with mem := mix data (data + total) b.mem other } =
        .ok (r, { b' with mem := mix data (data + total) b'.mem other }) ∧
      ∀ x, x < data ∨ data + total ≤ x → b'.mem x = b.mem x) := by
  rcases buddyAlloc_cases hA (h.inv hA) size count zero nof hsz with ⟨mem', ⟨e1, eo⟩, _, e3⟩ | ⟨p, b', ⟨e1, eo⟩, e2, e3, e4⟩
  · have e := e1 b.mem
    rw [buddy_self, mix_out eo] at e
    cases nof with
    | false => exact Or.inl ⟨e, e1 other⟩
    | true => exact Or.inr ⟨none, _, e, e1 other, eo⟩
  · have e := e1 b.mem
    rw [buddy_self, buddy_out eo] at e
    exact Or.inr ⟨some p, b', e, e1 other, eo⟩

/-- C75: giving a block back to a buddy allocator. -/
theorem C75_buddy_free (data : Int) (total : Nat) (b : Buddy) (live : List Owned) (hA : BuddyArgs total)
    (h : BHist data total b live) (o : Owned) (ho : o ∈ live) (other : Int → UInt8) :
    ∃ b', freeBuddy o.ptr b = .ok b' ∧
      freeBuddy o.ptr { b with mem := mix data (data + total) b.mem other } =
        .ok { b' with mem := mix data (data + total) b'.mem other } ∧
      ∀ x, x < data ∨ data + total ≤ x → b'.mem x = b.mem x := by
  obtain ⟨b', ⟨e1, eo⟩, _, _⟩ := freeBuddy_spec hA (h.inv hA) ho
  have e := e1 b.mem
  rw [buddy_self, buddy_out eo] at e
  exact ⟨b', e, e1 other, eo⟩

theorem store64_mix {h t p : Int} {n : Nat} {m o : Int → UInt8} (h1 : h ≤ p) (h2 : p + 8 ≤ t) :
    store64 p n (mix h t m o) = mix h t (store64 p n m) o := memWrite_mix h1 (by simpa [le64] using h2)

theorem load64_mix {h t p : Int} {m o : Int → UInt8} (h1 : h ≤ p) (h2 : p + 8 ≤ t) : load64 (mix h t m o) p = load64 m p :=
  bSize_mix h1 h2

theorem freePoolNode_mix {h t p : Int} {pool : Pool} {o : Int → UInt8} (h1 : h ≤ p) (h2 : p + 8 ≤ t) :
    freePoolNode p { pool with mem := mix h t pool.mem o } =
      { freePoolNode p pool with mem := mix h t (freePoolNode p pool).mem o } := by
  unfold freePoolNode
  dsimp only
  rw [store64_mix h1 h2]

/-- C75: creating a pool. -/
theorem C75_pool_create (buffer cap chunk : Int) (mem other : Int → UInt8) (hA : PoolArgs buffer cap chunk) :
    createPool buffer cap chunk (mix buffer (buffer + cap) mem other) =
      { createPool buffer cap chunk mem with mem := mix buffer (buffer + cap) (createPool buffer cap chunk mem).mem other } ∧
    ∀ x, x < buffer ∨ buffer + cap ≤ x → (createPool buffer cap chunk mem).mem x = mem x := by
  have hk := hA.large
  have hcap := hA.fits
  have hcnt : (cap.tdiv chunk).toNat = chunkCount cap chunk := by
    unfold chunkCount; rw [Int.tdiv_eq_ediv_of_nonneg (by omega)]
  have key : ∀ n : Nat, n ≤ chunkCount cap chunk →
      let r := fun m => (List.range n).foldl (fun pool (i : Nat) => freePoolNode (pool.beg + i * pool.chunk) pool)
        (⟨buffer, cap, chunk, 0, m⟩ : Pool)
      r (mix buffer (buffer + cap) mem other) = { r mem with mem := mix buffer (buffer + cap) (r mem).mem other } ∧
      (r mem).beg = buffer ∧ (r mem).chunk = chunk ∧ ∀ x, x < buffer ∨ buffer + cap ≤ x → (r mem).mem x = mem x := by
    intro n
    induction n with
    | zero => intro _; exact ⟨rfl, rfl, rfl, fun _ _ => rfl⟩
    | succ n ih =>
      intro hn r
      obtain ⟨e1, e2, e3, e4⟩ := ih (by omega)
      dsimp only at e1 e2 e3 e4
      have hin : buffer + (n : Int) * chunk ∈ chunks buffer cap chunk := mem_chunks.2 ⟨n, by omega, rfl⟩
      obtain ⟨g1, g2⟩ := chunks_range (by omega) (by omega) hin
      have er : ∀ m, r m = freePoolNode (((List.range n).foldl (fun pool (i : Nat) => freePoolNode (pool.beg + i * pool.chunk) pool)
        (⟨buffer, cap, chunk, 0, m⟩ : Pool)).beg + n * ((List.range n).foldl (fun pool (i : Nat) => freePoolNode (pool.beg + i * pool.chunk) pool)
        (⟨buffer, cap, chunk, 0, m⟩ : Pool)).chunk) ((List.range n).foldl (fun pool (i : Nat) => freePoolNode (pool.beg + i * pool.chunk) pool)
        (⟨buffer, cap, chunk, 0, m⟩ : Pool)) := by
        intro m
        show (List.range (n + 1)).foldl _ _ = _
        rw [List.range_succ, List.foldl_append]
        rfl
      rw [er, er, e1]
      dsimp only
      generalize (List.range n).foldl (fun pool (i : Nat) => freePoolNode (pool.beg + i * pool.chunk) pool)
        (⟨buffer, cap, chunk, 0, mem⟩ : Pool) = R at e2 e3 e4 ⊢
      rw [e2, e3]
      have hm := freePoolNode_mix (pool := R) (p := buffer + (n : Int) * chunk) (o := other) g1 (by omega : _ + 8 ≤ buffer + cap)
      rw [e2, e3] at hm
      refine ⟨hm, e2, e3, fun x hx => ?_⟩
      show store64 _ _ _ x = _
      rw [store64_other (by omega), e4 x hx]
  obtain ⟨e1, _, _, e4⟩ := key _ (le_refl _)
  unfold createPool freePool
  dsimp only
  rw [hcnt]
  exact ⟨e1, e4⟩

/-- C75: allocating from a pool, after any history. -/
theorem C75_pool_alloc (buffer cap chunk : Int) (pool : Pool) (live : List Int) (hA : PoolArgs buffer cap chunk)
    (h : PHist buffer cap chunk pool live) (zero nof : Bool) (other : Int → UInt8) :
    (poolAlloc zero nof pool = .longjmp ∧
      poolAlloc zero nof { pool with mem := mix buffer (buffer + cap) pool.mem other } = .longjmp) ∨
    (∃ r pool', poolAlloc zero nof pool = .ok (r, pool') ∧
      poolAlloc zero nof { pool with mem := mix buffer (buffer + cap) pool.mem other } =
        .ok (r, { pool' with mem := mix buffer (buffer + cap) pool'.mem other }) ∧
      ∀ x, x < buffer ∨ buffer + cap ≤ x → pool'.mem x = pool.mem x) := by
  obtain ⟨args, cs, hc, hperm⟩ := h.inv hA
  have hk := hA.large
  have hcap := hA.fits
  cases cs with
  | nil =>
    have h0 : pool.head = 0 := hc
    cases nof with
    | false => left; unfold poolAlloc; dsimp only; rw [if_pos h0, if_pos h0]; exact ⟨rfl, rfl⟩
    | true => right; unfold poolAlloc; dsimp only; rw [if_pos h0, if_pos h0]; exact ⟨none, pool, rfl, rfl, fun _ _ => rfl⟩
  | cons c cs =>
    obtain ⟨h1, h2⟩ := hc
    have hcin : c ∈ chunks buffer cap chunk := hperm.subset (by simp)
    obtain ⟨g1, g2⟩ := chunks_range (by omega) (by omega) hcin
    have hb := hA.notNull
    have hne : pool.head ≠ 0 := by omega
    right
    unfold poolAlloc
    dsimp only
    rw [if_neg hne, if_neg hne, load64_mix (by omega) (by omega)]
    refine ⟨some pool.head, _, rfl, ?_, ?_⟩
    · cases zero with
      | false => rfl
      | true => simp only [if_true]; rw [args.2.2, memZero_mix (by omega) (by omega)]
    · intro x hx
      cases zero with
      | false => rfl
      | true => simp only [if_true]; unfold memZero; rw [args.2.2, if_neg (by omega)]

/-- C75: giving a chunk back to a pool. -/
theorem C75_pool_free (buffer cap chunk : Int) (pool : Pool) (live : List Int) (hA : PoolArgs buffer cap chunk)
    (h : PHist buffer cap chunk pool live) (p : Int) (hp : p ∈ live) (other : Int → UInt8) :
    freePoolNode p { pool with mem := mix buffer (buffer + cap) pool.mem other } =
      { freePoolNode p pool with mem := mix buffer (buffer + cap) (freePoolNode p pool).mem other } ∧
    ∀ x, x < buffer ∨ buffer + cap ≤ x → (freePoolNode p pool).mem x = pool.mem x := by
  obtain ⟨args, cs, hc, hperm⟩ := h.inv hA
  have hk := hA.large
  have hcap := hA.fits
  obtain ⟨g1, g2⟩ := chunks_range (by omega) (by omega) (hperm.subset (by simp [hp]) : p ∈ chunks buffer cap chunk)
  refine ⟨?_, fun x hx => ?_⟩
  · unfold freePoolNode
    dsimp only
    rw [store64_mix g1 (by omega)]
  · show store64 _ _ _ x = _
    rw [store64_other (by omega)]

/-- The theorems apply: the history of `C58_example`, and of `C51_example`. -/
example : ∃ b b' : Buddy, BHist 4096 512 b [⟨4368, 40⟩, ⟨4432, 24⟩] ∧ freeBuddy 4432 b = .ok b' ∧
    b'.mem 4608 = b.mem 4608 ∧ b'.mem 4095 = b.mem 4095 := by
  obtain ⟨b, live, hA, hh, rfl⟩ := C58_example
  obtain ⟨b', e, _, ho⟩ := C75_buddy_free 4096 512 b _ hA hh ⟨4432, 24⟩ (by simp) (fun _ => 0)
  exact ⟨b, b', hh, e, ho _ (by decide), ho _ (by decide)⟩

example : ∃ pool : Pool, PHist 4096 64 16 pool [4112, 4128, 4144] ∧ (freePoolNode 4144 pool).mem 4160 = pool.mem 4160 := by
  obtain ⟨pool, live, hA, hh, rfl⟩ := C51_example
  exact ⟨pool, hh, (C75_pool_free 4096 64 16 pool _ hA hh 4144 (by simp) (fun _ => 0)).2 _ (by decide)⟩

end Flo
