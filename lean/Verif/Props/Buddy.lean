import Verif.Proofs.BuddyFit
import Mathlib.Data.Nat.Log
import Verif.Proofs.Sat
/-!
# The buddy allocator (C58), requests that do not fit (C65), free memory (C73)
-/
namespace Flo
open Spec

/-- C58: after any history the blocks in use lie inside the managed memory (behind their headers), start at a multiple of
16 bytes from its beginning, and no two of them overlap. -/
theorem C58_live (data : Int) (total : Nat) (b : Buddy) (live : List Owned) (hA : BuddyArgs total)
    (h : BHist data total b live) :
    (∀ o ∈ live, data + 16 ≤ o.ptr ∧ o.ptr + o.bytes ≤ data + total ∧ (16 : Int) ∣ o.ptr - data) ∧
    (live.map Owned.ptr).Nodup ∧
    (∀ o ∈ live, ∀ o' ∈ live, o ≠ o' → o.ptr + o.bytes + 16 ≤ o'.ptr ∨ o'.ptr + o'.bytes + 16 ≤ o.ptr) := by
  obtain ⟨_, _, hnd, bs, hT, hl⟩ := h.inv hA
  refine ⟨fun o ho => ?_, hnd, fun o ho o' ho' hne => ?_⟩
  · obtain ⟨k, h1, h2, h3, h4⟩ := hl o ho
    obtain ⟨g1, g2, g3, g4, g5⟩ := hT.bounds k h1
    exact ⟨by omega, by omega, by omega⟩
  · obtain ⟨k, h1, h2, h3, h4⟩ := hl o ho
    obtain ⟨k', h1', h2', h3', h4'⟩ := hl o' ho'
    have hnk : k ≠ k' := by
      rintro rfl
      exact hne (nodup_ptr hnd ho ho' (by omega))
    have := hT.apart k h1 k' h1' hnk
    omega

/-- C58: an allocation ends; it fails (the failure handler is taken or NULL returned), or it returns a block that overlaps no
block in use, lies inside the managed memory, and is zeroed if that was asked for.  In no case a byte of a block in use
changes. -/
theorem C58_alloc (data : Int) (total : Nat) (b : Buddy) (live : List Owned) (hA : BuddyArgs total)
    (h : BHist data total b live) (size count : Nat) (zero nof : Bool) (hsz : size * count < 2 ^ 62) :
    (nof = false ∧ buddyAlloc size count zero nof b = .longjmp) ∨
    (nof = true ∧ ∃ b', buddyAlloc size count zero nof b = .ok (none, b') ∧
      ∀ o ∈ live, ∀ x, o.ptr ≤ x → x < o.ptr + o.bytes → b'.mem x = b.mem x) ∨
    (∃ p b', buddyAlloc size count zero nof b = .ok (some p, b') ∧
      data + 16 ≤ p ∧ p + ((size * count : Nat) : Int) ≤ data + total ∧ (16 : Int) ∣ p - data ∧
      (∀ o ∈ live, p + ((size * count : Nat) : Int) + 16 ≤ o.ptr ∨ o.ptr + o.bytes + 16 ≤ p) ∧
      (∀ o ∈ live, ∀ x, o.ptr ≤ x → x < o.ptr + o.bytes → b'.mem x = b.mem x) ∧
      (zero = true → ∀ x, p ≤ x → x < p + ((size * count : Nat) : Int) → b'.mem x = 0)) := by
  rcases buddyAlloc_cases hA (h.inv hA) size count zero nof hsz with ⟨mem', ⟨e1, eo⟩, _, e3⟩ | ⟨p, b', ⟨e1, eo⟩, e2, e3, e4⟩
  · cases nof with
    | false =>
      have e1 := e1 b.mem
      rw [buddy_self] at e1
      exact Or.inl ⟨rfl, e1⟩
    | true =>
      have e1 := e1 b.mem
      rw [buddy_self, mix_out eo] at e1
      exact Or.inr (Or.inl ⟨rfl, _, e1, e3⟩)
  · right; right
    have e1 := e1 b.mem
    rw [buddy_self, buddy_out eo] at e1
    have hH := h.alloc hsz e1
    obtain ⟨g1, g2, g3⟩ := C58_live data total b' _ hA hH
    obtain ⟨q1, q2, q3⟩ := g1 ⟨p, size * count⟩ (by simp)
    refine ⟨p, b', e1, q1, q2, q3, fun o ho => ?_, e3, e4⟩
    have hne : (⟨p, size * count⟩ : Owned) ≠ o := by
      rintro rfl
      simp only [List.map_cons, List.nodup_cons] at g2
      exact g2.1 (List.mem_map.2 ⟨_, ho, rfl⟩)
    exact g3 ⟨p, size * count⟩ (by simp) o (by simp [ho]) hne

/-- C58: freeing a block in use ends, and changes no byte of the other blocks in use. -/
theorem C58_free (data : Int) (total : Nat) (b : Buddy) (live : List Owned) (hA : BuddyArgs total)
    (h : BHist data total b live) (o : Owned) (ho : o ∈ live) :
    ∃ b', freeBuddy o.ptr b = .ok b' ∧
      ∀ o' ∈ live, o' ≠ o → ∀ x, o'.ptr ≤ x → x < o'.ptr + o'.bytes → b'.mem x = b.mem x := by
  obtain ⟨b', ⟨e1, eo⟩, _, e3⟩ := freeBuddy_spec hA (h.inv hA) ho
  have e1 := e1 b.mem
  rw [buddy_self, buddy_out eo] at e1
  exact ⟨b', e1, e3⟩

/-- The theorems above apply: two blocks allocated, one freed, another one allocated. -/
theorem C58_example :
    ∃ (b : Buddy) (live : List Owned), BuddyArgs 512 ∧ BHist 4096 512 b live ∧ live = [⟨4368, 40⟩, ⟨4432, 24⟩] := by
  have h0 : BHist 4096 512 (createBuddy 4096 512 (fun _ => 255)) [] := .create
  obtain ⟨⟨p1, b1⟩, e1, f1⟩ := okAnd_ex (x := buddyAlloc 100 1 false false (createBuddy 4096 512 (fun _ => 255)))
    (p := fun v => decide (v.1 = some 4496 ∧
      okAnd (buddyAlloc 8 3 true false v.2) (fun w => decide (w.1 = some 4432 ∧
        okAnd (freeBuddy 4496 w.2) (fun b => okAnd (buddyAlloc 4 10 true true b) (fun u => decide (u.1 = some 4368))) = true)) = true))
    (by decide +kernel)
  obtain ⟨rfl, f1⟩ := of_decide_eq_true f1
  obtain ⟨⟨p2, b2⟩, e2, f2⟩ := okAnd_ex f1
  obtain ⟨rfl, f2⟩ := of_decide_eq_true f2
  obtain ⟨b3, e3, f3⟩ := okAnd_ex f2
  obtain ⟨⟨p4, b4⟩, e4, f4⟩ := okAnd_ex f3
  have f4 := of_decide_eq_true f4
  dsimp only at f4
  subst f4
  have h1 := (h0.alloc (by decide) e1).alloc (by decide) e2
  have h2 := h1.free (o := ⟨4496, 100 * 1⟩) (by simp) e3
  have h3 := h2.alloc (by decide) e4
  exact ⟨b4, _, ⟨9, by decide, by decide, by decide⟩, h3, by decide⟩

/-- C65 (partial): a request that does not fit is refused.  Missing: requests whose number of bytes overflows, see
`C65_violated`. -/
theorem C65_refused_partial (data : Int) (total : Nat) (b : Buddy) (live : List Owned) (hA : BuddyArgs total)
    (h : BHist data total b live) (size count : Nat) (zero : Bool) (hsz : size * count < 2 ^ 62)
    (hbig : total < size * count + 16) : buddyAlloc size count zero false b = .longjmp := by
  rcases C58_alloc data total b live hA h size count zero false hsz with ⟨_, h1⟩ | ⟨h1, _⟩ | ⟨p, b', h1, h2, h3, _⟩
  · exact h1
  · cases h1
  · omega

/-- C65 (violated): 2^60 + 1 elements of 16 bytes are granted from 64 bytes: the number of bytes wraps around. -/
theorem C65_violated :
    ∃ (b b' : Buddy) (p : Int), BuddyArgs 64 ∧ BHist 4096 64 b [] ∧
      buddyAlloc 16 1152921504606846977 false false b = .ok (some p, b') := by
  obtain ⟨⟨p1, b1⟩, e1, f1⟩ := okAnd_ex (x := buddyAlloc 16 1152921504606846977 false false (createBuddy 4096 64 (fun _ => 0)))
    (p := fun v => v.1 == some 4112) (by decide +kernel)
  have : p1 = some 4112 := by simpa using f1
  subst this
  exact ⟨_, b1, 4112, ⟨6, by decide, by decide, by decide⟩, .create, e1⟩

/-! ## C73: free memory can be allocated -/

/-- C73 (partial): a fresh allocator grants every request that fits behind one header.  Missing: allocators that were
used before, see `C73_violated` and `C73_violated_refree`. -/
theorem C73_fresh_grants_partial (data : Int) (total : Nat) (mem : Int → UInt8) (hA : BuddyArgs total) (size count : Nat)
    (zero nof : Bool) (hfit : size * count + 16 ≤ total) :
    ∃ p b', buddyAlloc size count zero nof (createBuddy data total mem) = .ok (some p, b') ∧
      data + 16 ≤ p ∧ p + ((size * count : Nat) : Int) ≤ data + total := by
  obtain ⟨hp, hlt⟩ := hA.pow2
  have hle : total ≤ 2 ^ 62 := by
    obtain ⟨k, _, h2, h3⟩ := hA.pow
    rw [h3]; exact Nat.pow_le_pow_right (by omega) h2
  have hsz : size * count < 2 ^ 62 := by omega
  obtain ⟨hh, ht, _, bs, hT, _⟩ := create_binv (data := data) hA mem
  have h1 : bSize (createBuddy data total mem).mem data = total := by
    show bSize (setFree data true (setSize data total mem)) data = _
    rw [setFree_size, setSize_read (by omega)]
  have h2 : bFree (createBuddy data total mem).mem data = true := setFree_read
  have hT0 : Tiled (createBuddy data total mem).mem (data + total) data [⟨data, total, true⟩] := ⟨rfl, ⟨h1, h2⟩, hp, rfl⟩
  obtain ⟨k, m', bs', er, _⟩ := splitBuddy_spec (size := size * count + 16) (a := data) (b := ⟨data, total, true⟩) (by omega)
    (by omega) (by omega) hT0 (by simp) rfl rfl hfit
  have e := er.plain
  have hw : wordMod = 2 ^ 64 := by decide
  have hnj : ∃ p b', buddyAlloc size count zero nof (createBuddy data total mem) = .ok (some p, b') := by
    unfold buddyAlloc
    dsimp only
    rw [Nat.mod_eq_of_lt (a := size * count) (by omega), Nat.mod_eq_of_lt (by omega), hh, ht]
    have hf : findBestBuddy data (data + total) (size * count + 16) (createBuddy data total mem).mem = .ok (some k.addr, m') := by
      unfold findBestBuddy
      rw [if_pos ⟨by unfold nextBuddy; rw [h1], h2⟩, e]
    rw [hf]
    exact ⟨_, _, rfl⟩
  obtain ⟨p, b', e⟩ := hnj
  rcases C58_alloc data total _ [] hA .create size count zero nof hsz with ⟨_, h⟩ | ⟨_, b'', h, _⟩ | ⟨q, b'', h, g1, g2, _⟩
  · rw [e] at h; cases h
  · rw [e] at h; cases h
  · rw [e] at h; cases h
    exact ⟨p, b', e, g1, g2⟩

/-- The theorem applies: 1008 bytes from 1024. -/
example : ∃ p b', buddyAlloc 1008 1 false false (createBuddy 4096 1024 (fun _ => 7)) = .ok (some p, b') := by
  obtain ⟨p, b', h, _⟩ := C73_fresh_grants_partial 4096 1024 (fun _ => 7) ⟨10, by decide, by decide, by decide⟩ 1008 1 false false
    (by decide)
  exact ⟨p, b', h⟩

theorem jumps_eq {α : Type} {x : Out α} (h : jumps x = true) : x = .longjmp := by
  cases x <;> first | rfl | cases h

/-- C73 (violated): after one block of 8 bytes has been allocated and freed again, nothing is in use, but the request
that a fresh allocator grants (see the example above) is refused: merging stops after the last pair of blocks. -/
theorem C73_violated :
    ∃ b : Buddy, BuddyArgs 1024 ∧ BHist 4096 1024 b [] ∧ buddyAlloc 1008 1 false false b = .longjmp := by
  have h0 : BHist 4096 1024 (createBuddy 4096 1024 (fun _ => 7)) [] := .create
  obtain ⟨⟨p1, b1⟩, e1, f1⟩ := okAnd_ex (x := buddyAlloc 8 1 false false (createBuddy 4096 1024 (fun _ => 7)))
    (p := fun v => decide (v.1 = some 5104 ∧
      okAnd (freeBuddy 5104 v.2) (fun b => jumps (buddyAlloc 1008 1 false false b)) = true)) (by decide +kernel)
  obtain ⟨rfl, f1⟩ := of_decide_eq_true f1
  obtain ⟨b2, e2, f2⟩ := okAnd_ex f1
  have h1 := (h0.alloc (by decide) e1).free (o := ⟨5104, 8 * 1⟩) (by simp) e2
  exact ⟨b2, ⟨10, by decide, by decide, by decide⟩, h1, jumps_eq f2⟩

/-- C73 (violated): a block of 230 bytes is freed and the same 230 bytes are requested at once: refused, although the
block is still free; the search jumps over the last block. -/
theorem C73_violated_refree :
    ∃ (b b' : Buddy) (live : List Owned), BuddyArgs 512 ∧ BHist 4096 512 b live ∧ ⟨4368, 230⟩ ∈ live ∧
      freeBuddy 4368 b = .ok b' ∧ buddyAlloc 230 1 false false b' = .longjmp := by
  have h0 : BHist 4096 512 (createBuddy 4096 512 (fun _ => 7)) [] := .create
  obtain ⟨⟨p1, b1⟩, e1, f1⟩ := okAnd_ex (x := buddyAlloc 230 1 false false (createBuddy 4096 512 (fun _ => 7)))
    (p := fun v => decide (v.1 = some 4368 ∧ okAnd (buddyAlloc 40 1 false false v.2) (fun v => decide (v.1 = some 4304 ∧
      okAnd (buddyAlloc 40 1 false false v.2) (fun v => decide (v.1 = some 4240 ∧
      okAnd (buddyAlloc 40 1 false false v.2) (fun v => decide (v.1 = some 4176 ∧
      okAnd (freeBuddy 4304 v.2) (fun b => okAnd (freeBuddy 4240 b) (fun b => okAnd (freeBuddy 4368 b) (fun b =>
        jumps (buddyAlloc 230 1 false false b)))) = true)) = true)) = true)) = true)) (by decide +kernel)
  obtain ⟨rfl, f1⟩ := of_decide_eq_true f1
  obtain ⟨⟨p2, b2⟩, e2, f2⟩ := okAnd_ex f1
  obtain ⟨rfl, f2⟩ := of_decide_eq_true f2
  obtain ⟨⟨p3, b3⟩, e3, f3⟩ := okAnd_ex f2
  obtain ⟨rfl, f3⟩ := of_decide_eq_true f3
  obtain ⟨⟨p4, b4⟩, e4, f4⟩ := okAnd_ex f3
  obtain ⟨rfl, f4⟩ := of_decide_eq_true f4
  obtain ⟨b5, e5, f5⟩ := okAnd_ex f4
  obtain ⟨b6, e6, f6⟩ := okAnd_ex f5
  obtain ⟨b7, e7, f7⟩ := okAnd_ex f6
  have h1 := (((h0.alloc (by decide) e1).alloc (by decide) e2).alloc (by decide) e3).alloc (by decide) e4
  have h2 := (h1.free (o := ⟨4304, 40 * 1⟩) (by simp) e5).free (o := ⟨4240, 40 * 1⟩) (by decide) e6
  exact ⟨b6, b7, _, ⟨9, by decide, by decide, by decide⟩, h2, by decide, e7, jumps_eq f7⟩

/-- C73 (partial): a block that is freed can be allocated again at once, with any size up to its own, as long as some block in
use lies behind it.  The full property has no such condition; `C73_violated_refree` shows that it is needed. -/
theorem C73_refree_partial (data : Int) (total : Nat) (b b' : Buddy) (live : List Owned) (hA : BuddyArgs total)
    (h : BHist data total b live) (o o' : Owned) (ho : o ∈ live) (ho' : o' ∈ live) (hlt : o.ptr < o'.ptr)
    (hf : freeBuddy o.ptr b = .ok b') (size count : Nat) (zero nof : Bool) (hn : size * count ≤ o.bytes) :
    ∃ p b'', buddyAlloc size count zero nof b' = .ok (some p, b'') := by
  obtain ⟨b2, bs, e, hh, ht, hT, hother, k, hk, hkf, hka, hkn⟩ := freeBuddy_cover hA (h.inv hA) ho
  rw [e] at hf; cases hf
  obtain ⟨k', hk', hk'f, hk'a⟩ := hother o' ho' (by rintro rfl; omega)
  exact buddyAlloc_grants hA hh ht hT hk hkf hk' (by omega) size count zero nof (by omega)

/-- The theorem applies: of two blocks the first is freed, and its 24 bytes are granted again. -/
example : ∃ (b b' : Buddy) (live : List Owned), BuddyArgs 512 ∧ BHist 4096 512 b live ∧ ⟨4432, 24⟩ ∈ live ∧ ⟨4496, 100⟩ ∈ live ∧
    freeBuddy 4432 b = .ok b' ∧ ∃ p b'', buddyAlloc 24 1 false false b' = .ok (some p, b'') := by
  have h0 : BHist 4096 512 (createBuddy 4096 512 (fun _ => 255)) [] := .create
  obtain ⟨⟨p1, b1⟩, e1, f1⟩ := okAnd_ex (x := buddyAlloc 100 1 false false (createBuddy 4096 512 (fun _ => 255)))
    (p := fun v => decide (v.1 = some 4496 ∧
      okAnd (buddyAlloc 24 1 true false v.2) (fun w => decide (w.1 = some 4432 ∧ okAnd (freeBuddy 4432 w.2) (fun _ => true) = true)) = true))
    (by decide +kernel)
  obtain ⟨rfl, f1⟩ := of_decide_eq_true f1
  obtain ⟨⟨p2, b2⟩, e2, f2⟩ := okAnd_ex f1
  obtain ⟨rfl, f2⟩ := of_decide_eq_true f2
  obtain ⟨b3, e3, _⟩ := okAnd_ex f2
  have h1 := (h0.alloc (by decide) e1).alloc (by decide) e2
  have hA : BuddyArgs 512 := ⟨9, by decide, by decide, by decide⟩
  exact ⟨b2, b3, _, hA, h1, by simp, by simp, e3,
    C73_refree_partial 4096 512 b2 b3 _ hA h1 ⟨4432, 24 * 1⟩ ⟨4496, 100 * 1⟩ (by simp) (by simp) (by decide) e3 24 1 false false (by decide)⟩

/-- C73 (partial): how many requests of equal size a fresh allocator grants: exactly as many as blocks of the size `s` (a power
of two, see `BlockFor`) fit into its memory. -/
theorem C73_equal_requests_partial (data : Int) (total n s : Nat) (hA : BuddyArgs total) (hs : BlockFor total n s) (b : Buddy)
    (live : List Owned) (h : Fill data total n b live) (size count : Nat) (zero nof : Bool) (hn : size * count = n) :
    (∃ p b', buddyAlloc size count zero nof b = .ok (some p, b')) ↔ (live.length + 1) * s ≤ total := by
  obtain ⟨i, rfl⟩ := hs.pow hA
  rcases fill_step hA hs (h.inv hA hs) size count zero nof hn with ⟨h1, p, b', e, _⟩ | ⟨h1, h2⟩
  · exact ⟨fun _ => h1, fun _ => ⟨p, b', e⟩⟩
  · exact ⟨fun ⟨p, b', e⟩ => absurd e (h2 p b'), fun hle => absurd hle h1⟩

/-- C73 (partial): in particular `k` requests of `n` bytes are granted if the memory has room for `k` times twice the `n` bytes and
their header. -/
theorem C73_half_full_partial (data : Int) (total n : Nat) (hA : BuddyArgs total) (b : Buddy)
    (live : List Owned) (h : Fill data total n b live) (size count : Nat) (zero nof : Bool) (hn : size * count = n)
    (hfit : (live.length + 1) * (2 * (n + 16)) ≤ total) :
    ∃ p b', buddyAlloc size count zero nof b = .ok (some p, b') := by
  have hk1 : 2 ^ Nat.log 2 (2 * (n + 16)) ≤ 2 * (n + 16) := Nat.pow_log_le_self 2 (by omega)
  have hk2 : 2 * (n + 16) < 2 ^ (Nat.log 2 (2 * (n + 16)) + 1) := Nat.lt_pow_succ_log_self (by omega) _
  rw [pow_succ] at hk2
  have h1 : 1 * (2 * (n + 16)) ≤ (live.length + 1) * (2 * (n + 16)) := Nat.mul_le_mul_right _ (by omega)
  have hs : BlockFor total n (2 ^ Nat.log 2 (2 * (n + 16))) := .part _ rfl hk1 (by omega) (by omega)
  exact (C73_equal_requests_partial data total n _ hA hs b live h size count zero nof hn).2
    (le_trans (Nat.mul_le_mul_left _ hk1) hfit)

/-- The theorems apply: 1024 bytes hold 16 blocks of 24 bytes (the size of their blocks is 64), so a second one is granted. -/
example : BlockFor 1024 24 64 ∧ ∃ b p, Fill 4096 1024 24 b [⟨p, 24⟩] ∧ ∃ p' b', buddyAlloc 8 3 true false b = .ok (some p', b') := by
  have hA : BuddyArgs 1024 := ⟨10, by decide, by decide, by decide⟩
  have hB : BlockFor 1024 24 64 := .part 6 (by decide) (by decide) (by decide) (by decide)
  have h0 : Fill 4096 1024 24 (createBuddy 4096 1024 (fun _ => 7)) [] := .create
  obtain ⟨p, b, e⟩ := (C73_equal_requests_partial 4096 1024 24 64 hA hB _ _ h0 24 1 false false (by decide)).2 (by decide)
  have h1 := h0.alloc (by decide) e
  exact ⟨hB, b, p, h1, (C73_equal_requests_partial 4096 1024 24 64 hA hB _ _ h1 8 3 true false (by decide)).2 (by simp)⟩

/-- C65 exactly: a request counts as many bytes as its product leaves modulo 2^64; on a fresh allocator it is granted
exactly when that many bytes and a header fit (for remainders below 2^62). -/
theorem C65_exact_partial (size count : Nat) (zero nof : Bool) :
    (∀ b, buddyAlloc size count zero nof b = buddyAlloc 1 (size * count % 2 ^ 64) zero nof b) ∧
    ∀ (data : Int) (total : Nat) (mem : Int → UInt8), BuddyArgs total → size * count % 2 ^ 64 < 2 ^ 62 →
      ((∃ p b', buddyAlloc size count zero nof (createBuddy data total mem) = .ok (some p, b')) ↔
        size * count % 2 ^ 64 + 16 ≤ total) := by
  have key : ∀ b, buddyAlloc size count zero nof b = buddyAlloc 1 (size * count % 2 ^ 64) zero nof b := by
    intro b
    have h : 1 * (size * count % 2 ^ 64) % wordMod = size * count % wordMod := by
      unfold wordMod; omega
    unfold buddyAlloc
    rw [h]
  refine ⟨key, fun data total mem hA hlt => ?_⟩
  rw [key]
  constructor
  · rintro ⟨p, b', e⟩
    by_contra hc
    rcases C58_alloc data total _ [] hA .create 1 (size * count % 2 ^ 64) zero nof (by omega) with
      ⟨_, h1⟩ | ⟨_, _, h1, _⟩ | ⟨p', b'', h1, h2, h3, _⟩
    · rw [h1] at e; cases e
    · rw [h1] at e; cases e
    · omega
  · intro hfit
    obtain ⟨p, b', e, _⟩ := C73_fresh_grants_partial data total mem hA 1 (size * count % 2 ^ 64) zero nof (by omega)
    exact ⟨p, b', e⟩

example : BuddyArgs 64 ∧ 16 * 1152921504606846977 % 2 ^ 64 + 16 ≤ 64 := ⟨⟨6, by decide, by decide, by decide⟩, by decide⟩

end Flo
