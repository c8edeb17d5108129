import Verif.Proofs.BlockList
import Verif.Props.Buddy
/-!
# The buddy allocator is a machine on lists of blocks (C110), and what it grants (C73)
-/
namespace Flo
open Spec Spec.Blocks

/-! ## C110 -/

/-- **C110** The answers of an allocator are those of the machine on lists of blocks (`replay`, `Spec/BlockList.lean`), and its memory
holds the blocks of the machine: whatever the memory contained at the start, whatever was written into the blocks, and whether they
were asked to be zeroed. -/
theorem C110_machine (data : Int) (total : Nat) (rs : List Req) (as : List (Option Int)) (b : Buddy) (live : List Owned)
    (hA : BuddyArgs total) (h : Trace data total rs as b live) :
    as = (replay total rs).2.map (fun a => a.map fun o : Nat => data + o) ∧ Laid b.mem b.tail b.head (replay total rs).1 := by
  obtain ⟨h1, h2, _⟩ := h.blocks hA
  obtain ⟨hh, ht, _⟩ := h.hist.inv hA
  rw [hh, ht]
  exact ⟨h1, h2⟩

/-- **C110** The next request is answered as the machine says. -/
theorem C110_next (data : Int) (total : Nat) (rs : List Req) (as : List (Option Int)) (b : Buddy) (live : List Owned)
    (hA : BuddyArgs total) (h : Trace data total rs as b live) (size count : Nat) (zero nof : Bool) (hsz : size * count < 2 ^ 62) :
    match (request (size * count) (replay total rs).1).2 with
    | some o => ∃ b', buddyAlloc size count zero nof b = .ok (some (data + o), b')
    | none => if nof = true then ∃ b', buddyAlloc size count zero nof b = .ok (none, b') else buddyAlloc size count zero nof b = .longjmp := by
  obtain ⟨_, h2, h3⟩ := h.blocks hA
  obtain ⟨hh, ht, _⟩ := h.hist.inv hA
  obtain ⟨mem', _, _, e⟩ := buddyAlloc_exact hA hh ht h2 h3 size count zero nof hsz
  rw [e]
  cases (request (size * count) (replay total rs).1).2 with
  | some o => exact ⟨_, rfl⟩
  | none => cases nof <;> simp

/-- **C110** Two allocators of the same size, anywhere in memory, that get the same requests give the same answers, relative to the
start of their memory. -/
theorem C110_same_requests (data data' : Int) (total : Nat) (rs : List Req) (as as' : List (Option Int)) (b b' : Buddy)
    (live live' : List Owned) (hA : BuddyArgs total) (h : Trace data total rs as b live) (h' : Trace data' total rs as' b' live') :
    as'.map (fun a => a.map fun p => p - data') = as.map (fun a => a.map fun p => p - data) := by
  rw [(C110_machine _ _ _ _ _ _ hA h).1, (C110_machine _ _ _ _ _ _ hA h').1, List.map_map, List.map_map]
  refine List.map_congr_left fun a _ => ?_
  cases a with
  | none => rfl
  | some o =>
    simp only [Function.comp, Option.map_some]
    congr 1
    omega

/-! Concrete sessions, built with the machine. -/

theorem trace_ask {data : Int} {total : Nat} {rs : List Req} {as : List (Option Int)} {b : Buddy} {live : List Owned} (hA : BuddyArgs total)
    (h : Trace data total rs as b live) (n o : Nat) (hn : n < 2 ^ 62) (ho : (request n (replay total rs).1).2 = some o) :
    ∃ b', Trace data total (.ask n :: rs) (some (data + o) :: as) b' (⟨data + o, n⟩ :: live) := by
  have := C110_next data total rs as b live hA h n 1 false false (by omega)
  rw [Nat.mul_one, ho] at this
  obtain ⟨b', e⟩ := this
  have h' := Trace.alloc h (by omega) e
  rw [Nat.mul_one] at h'
  exact ⟨b', h'⟩

theorem trace_give {data : Int} {total : Nat} {rs : List Req} {as : List (Option Int)} {b : Buddy} {live : List Owned} (hA : BuddyArgs total)
    (h : Trace data total rs as b live) (o : Owned) (ho : o ∈ live) :
    ∃ b', Trace data total (.give (o.ptr - data).toNat :: rs) as b' (live.erase o) := by
  obtain ⟨_, h2, h3⟩ := h.blocks hA
  obtain ⟨mem', _, _, e⟩ := freeBuddy_exact hA (h.hist.inv hA) h2 h3 ho
  exact ⟨_, .free h ho e⟩

/-- A session on 128 bytes (the latest request first): four requests of one byte get four blocks; the two in the middle are given back and joined to serve a request of 40
bytes; then everything is given back. -/
def strayJoin : List Req :=
  [.give 112, .give 16, .give 48, .ask 40, .give 48, .give 80, .ask 1, .ask 1, .ask 1, .ask 1]

theorem strayJoin_trace : ∃ as b, Trace 4096 128 strayJoin as b [] := by
  have hA : BuddyArgs 128 := ⟨7, by decide, by decide, by decide⟩
  have t0 : Trace 4096 128 [] [] (createBuddy 4096 128 (fun _ => 7)) [] := .create
  obtain ⟨_, t1⟩ := trace_ask hA t0 1 112 (by decide) (by decide +kernel)
  obtain ⟨_, t2⟩ := trace_ask hA t1 1 80 (by decide) (by decide +kernel)
  obtain ⟨_, t3⟩ := trace_ask hA t2 1 48 (by decide) (by decide +kernel)
  obtain ⟨_, t4⟩ := trace_ask hA t3 1 16 (by decide) (by decide +kernel)
  obtain ⟨_, t5⟩ := trace_give hA t4 ⟨4096 + (80 : Nat), 1⟩ (by decide)
  obtain ⟨_, t6⟩ := trace_give hA t5 ⟨4096 + (48 : Nat), 1⟩ (by decide)
  obtain ⟨_, t7⟩ := trace_ask hA t6 40 48 (by decide) (by decide +kernel)
  obtain ⟨_, t8⟩ := trace_give hA t7 ⟨4096 + (48 : Nat), 40⟩ (by decide)
  obtain ⟨_, t9⟩ := trace_give hA t8 ⟨4096 + (16 : Nat), 1⟩ (by decide)
  obtain ⟨b, t10⟩ := trace_give hA t9 ⟨4096 + (112 : Nat), 1⟩ (by decide)
  exact ⟨_, b, t10⟩

/-- The theorems apply to it, and the machine shows the blocks at its end. -/
example : (∃ as b, Trace 4096 128 strayJoin as b []) ∧ (replay 128 strayJoin).2 = [some 48, some 16, some 48, some 80, some 112] ∧
    (replay 128 strayJoin).1 = [⟨32, true⟩, ⟨64, true⟩, ⟨32, true⟩] := ⟨strayJoin_trace, by decide +kernel, by decide +kernel⟩

/-! ## C73: what is granted -/

/-- **C73** exactly: after any history, a request is granted if and only if the machine finds a block for it in the blocks that are in
memory. -/
theorem C73_exact_partial (data : Int) (total : Nat) (b : Buddy) (live : List Owned) (hA : BuddyArgs total)
    (h : BHist data total b live) (l : List Piece) (hl : Laid b.mem b.tail b.head l) (size count : Nat) (zero nof : Bool)
    (hsz : size * count < 2 ^ 62) :
    (∃ p b', buddyAlloc size count zero nof b = .ok (some p, b')) ↔ (request (size * count) l).2 ≠ none := by
  obtain ⟨hh, ht, _, bs, hT, _⟩ := h.inv hA
  rw [hh, ht] at hl
  obtain ⟨hL, hB⟩ := laid_of_tiled hT
  have e := laid_unique hl hL
  subst e
  obtain ⟨mem', _, _, e⟩ := buddyAlloc_exact hA hh ht hL hB size count zero nof hsz
  rw [e]
  cases (request (size * count) (bs.map fun b => (⟨b.size, b.free⟩ : Piece))).2 with
  | some o => simp
  | none => cases nof <;> simp

theorem search_mono {n n' : Nat} (hn : n' ≤ n) : ∀ (l : List Piece) (off : Nat) (best best' : Option (Nat × Nat)),
    (best ≠ none → best' ≠ none) → (search n' off l best').1 = (search n off l best).1 ∧
      ((search n off l best).2 ≠ none → (search n' off l best').2 ≠ none)
  | [], off, best, best', h => ⟨rfl, h⟩
  | [x], off, best, best', h => ⟨rfl, h⟩
  | x :: y :: r, off, best, best', h => by
    have hsm : ∀ (b b' : Option (Nat × Nat)) (f : Bool) (p w : Nat), (b ≠ none → b' ≠ none) →
        ((if f = true then smaller n p w b else b) ≠ none → (if f = true then smaller n' p w b' else b') ≠ none) := by
      intro b b' f p w hb
      cases f with
      | false => simpa using hb
      | true =>
        rw [if_pos rfl, if_pos rfl]
        cases b' with
        | some q => obtain ⟨o, s⟩ := q; intro _; simp only [smaller]; split <;> simp
        | none =>
          cases b with
          | some q => exact absurd rfl (hb (by simp))
          | none =>
            simp only [smaller]
            by_cases hc : n ≤ w
            · rw [if_pos hc, if_pos (by omega)]; simp
            · rw [if_neg hc]; simp
    have hnl : ∀ (b b' : Option (Nat × Nat)) (p w : Nat), (b ≠ none → b' ≠ none) →
        (noLarger n p w (grow p w b) ≠ none → noLarger n' p w (grow p w b') ≠ none) := by
      intro b b' p w hb
      cases b' with
      | some q =>
        obtain ⟨o, s⟩ := q
        intro _
        simp only [grow]
        split <;> simp only [noLarger] <;> split <;> simp
      | none =>
        cases b with
        | some q => exact absurd rfl (hb (by simp))
        | none =>
          simp only [grow, noLarger]
          by_cases hc : n ≤ w
          · rw [if_pos hc, if_pos (by omega)]; simp
          · rw [if_neg hc]; simp
    rw [search, search]
    by_cases hm : x.free = true ∧ y.free = true ∧ x.size = y.size
    · rw [if_pos hm, if_pos hm]
      obtain ⟨i1, i2⟩ := search_mono hn r (off + x.size * 2) _ _ (hnl best best' off (x.size * 2) h)
      exact ⟨by dsimp only; rw [i1], i2⟩
    · rw [if_neg hm, if_neg hm]
      dsimp only
      have h2 := hsm _ _ y.free (off + x.size) y.size (hsm best best' x.free off x.size h)
      by_cases hc : x.size < y.size
      · rw [if_pos hc, if_pos hc]
        obtain ⟨i1, i2⟩ := search_mono hn r (off + x.size + y.size) _ _ h2
        exact ⟨by dsimp only; rw [i1], i2⟩
      · rw [if_neg hc, if_neg hc]
        obtain ⟨i1, i2⟩ := search_mono hn (y :: r) (off + x.size) _ _ h2
        exact ⟨by dsimp only; rw [i1], i2⟩

theorem find_mono {n n' : Nat} (hn : n' ≤ n) (l : List Piece) (h : (find n' l).2 = none) :
    (find n l).2 = none ∧ (find n l).1 = (find n' l).1 := by
  match l, h with
  | [], h => exact ⟨rfl, rfl⟩
  | [x], h =>
    by_cases hc : x.free = true ∧ n' ≤ x.size
    · simp [find, if_pos hc] at h
    · have hc' : ¬(x.free = true ∧ n ≤ x.size) := fun q => hc ⟨q.1, by omega⟩
      simp only [find, if_neg hc, if_neg hc']
      exact ⟨trivial, trivial⟩
  | x :: y :: r, h =>
    obtain ⟨i1, i2⟩ := search_mono hn (x :: y :: r) 0 none none id
    have ef : ∀ n, find n (x :: y :: r) = (match search n 0 (x :: y :: r) none with
      | (l', some (o, s)) => (Blocks.take n o 0 l', some (o + (s - (halve n 64 s).2)))
      | (l', none) => (l', none)) := fun _ => rfl
    rw [ef] at h ⊢
    rw [ef n']
    revert i1 i2 h
    rcases search n 0 (x :: y :: r) none with ⟨l1, _ | ⟨o1, s1⟩⟩ <;> rcases search n' 0 (x :: y :: r) none with ⟨l2, _ | ⟨o2, s2⟩⟩
    · intro _ i1 _; exact ⟨rfl, i1.symm⟩
    · intro h _ _; cases h
    · intro _ _ i2; exact absurd rfl (i2 (by simp))
    · intro h _ _; cases h

theorem request_mono {n n' : Nat} (hn : n' ≤ n) (l : List Piece) (h : (request n' l).2 = none) :
    (request n l).2 = none ∧ (request n l).1 = (request n' l).1 := by
  unfold request at h ⊢
  rcases e1 : find (n' + 16) l with ⟨l1, _ | o⟩
  · obtain ⟨j1, j2⟩ := find_mono (n := n + 16) (n' := n' + 16) (by omega) l (by rw [e1])
    rw [e1] at h j2
    rcases e2 : find (n + 16) l with ⟨l2, q⟩
    rw [e2] at j1 j2
    dsimp only at j1 j2
    subst j1 j2
    dsimp only at h ⊢
    rcases e3 : find (n' + 16) (joined l2) with ⟨l3, _ | o⟩
    · obtain ⟨k1, k2⟩ := find_mono (n := n + 16) (n' := n' + 16) (by omega) (joined l2) (by rw [e3])
      rcases e4 : find (n + 16) (joined l2) with ⟨l4, q⟩
      rw [e4] at k1 k2
      rw [e3] at k2
      dsimp only at k1 k2
      subst k1 k2
      exact ⟨rfl, rfl⟩
    · rw [e3] at h; cases h
  · rw [e1] at h; cases h

/-- **C73** What is granted at a moment is decided by the number of bytes alone, and never more easily for more bytes: if a request is
granted, every smaller one (of any element size and count) would have been granted too. -/
theorem C73_monotone_partial (data : Int) (total : Nat) (b : Buddy) (live : List Owned) (hA : BuddyArgs total)
    (h : BHist data total b live) (size count size' count' : Nat) (zero nof zero' nof' : Bool) (hsz : size * count < 2 ^ 62)
    (hle : size' * count' ≤ size * count) (hg : ∃ p b', buddyAlloc size count zero nof b = .ok (some p, b')) :
    ∃ p b', buddyAlloc size' count' zero' nof' b = .ok (some p, b') := by
  obtain ⟨hh, ht, _, bs, hT, _⟩ := h.inv hA
  have hL := (laid_of_tiled hT).1
  have hl : Laid b.mem b.tail b.head (bs.map fun b => (⟨b.size, b.free⟩ : Piece)) := by rw [hh, ht]; exact hL
  rw [C73_exact_partial data total b live hA h _ hl size count zero nof hsz] at hg
  rw [C73_exact_partial data total b live hA h _ hl size' count' zero' nof' (by omega)]
  exact fun hc => hg (request_mono hle _ hc).1

/-- The condition is met: 1008 bytes of 1024 are granted, so 8 × 100 are. -/
example : ∃ p b', buddyAlloc 8 100 false false (createBuddy 4096 1024 (fun _ => 7)) = .ok (some p, b') := by
  obtain ⟨p, b', h, _⟩ := C73_fresh_grants_partial 4096 1024 (fun _ => 7) ⟨10, by decide, by decide, by decide⟩ 1008 1 false false (by decide)
  exact C73_monotone_partial 4096 1024 _ [] ⟨10, by decide, by decide, by decide⟩ .create 1008 1 8 100 false false false false (by decide)
    (by decide) ⟨p, b', h⟩

theorem search_none {n : Nat} : ∀ (l : List Piece) (off : Nat) (best : Option (Nat × Nat)), (search n off l best).2 = none →
    best = none ∧ ∀ x ∈ (search n off l best).1.dropLast, x.free = true → x.size < n
  | [], off, best, h => ⟨h, by intro x hx; cases hx⟩
  | [x], off, best, h => ⟨h, by intro y hy; cases hy⟩
  | x :: y :: r, off, best, h => by
    have hsm : ∀ (b : Option (Nat × Nat)) (f : Bool) (p w : Nat), (if f = true then smaller n p w b else b) = none →
        b = none ∧ (f = true → w < n) := by
      intro b f p w e
      cases f with
      | false => exact ⟨by simpa using e, by simp⟩
      | true =>
        rw [if_pos rfl] at e
        cases b with
        | none =>
          simp only [smaller] at e
          split at e
          · cases e
          · next hc => exact ⟨rfl, fun _ => by omega⟩
        | some q =>
          obtain ⟨o, s⟩ := q
          simp only [smaller] at e
          split at e <;> cases e
    rw [search] at h ⊢
    by_cases hm : x.free = true ∧ y.free = true ∧ x.size = y.size
    · rw [if_pos hm] at h ⊢
      dsimp only at h ⊢
      obtain ⟨i1, i2⟩ := search_none r _ _ h
      have hb : best = none ∧ x.size * 2 < n := by
        cases best with
        | none =>
          simp only [grow, noLarger] at i1
          split at i1
          · cases i1
          · next hc => exact ⟨rfl, by omega⟩
        | some q =>
          obtain ⟨o, s⟩ := q
          simp only [grow] at i1
          split at i1 <;> simp only [noLarger] at i1 <;> split at i1 <;> cases i1
      refine ⟨hb.1, ?_⟩
      intro z hz hzf
      cases hq : (search n (off + x.size * 2) r (noLarger n off (x.size * 2) (grow off (x.size * 2) best))).1 with
      | nil => rw [hq] at hz; cases hz
      | cons a s =>
        rw [hq] at hz i2
        rw [List.dropLast_cons_cons] at hz
        rcases List.mem_cons.1 hz with rfl | hz
        · exact hb.2
        · exact i2 z hz hzf
    · rw [if_neg hm] at h ⊢
      dsimp only at h ⊢
      generalize hb2 : (if y.free = true then smaller n (off + x.size) y.size (if x.free = true then smaller n off x.size best else best)
        else (if x.free = true then smaller n off x.size best else best)) = best2 at h ⊢
      have key : best2 = none → best = none ∧ (x.free = true → x.size < n) ∧ (y.free = true → y.size < n) := by
        intro e
        rw [← hb2] at e
        obtain ⟨k1, k2⟩ := hsm _ _ _ _ e
        obtain ⟨k3, k4⟩ := hsm _ _ _ _ k1
        exact ⟨k3, k4, k2⟩
      by_cases hc : x.size < y.size
      · rw [if_pos hc] at h ⊢
        dsimp only at h ⊢
        obtain ⟨i1, i2⟩ := search_none r _ _ h
        obtain ⟨k1, k2, k3⟩ := key i1
        refine ⟨k1, ?_⟩
        intro z hz hzf
        rw [List.dropLast_cons_cons] at hz
        rcases List.mem_cons.1 hz with rfl | hz
        · exact k2 hzf
        · cases hq : (search n (off + x.size + y.size) r best2).1 with
          | nil => rw [hq] at hz; cases hz
          | cons a s =>
            rw [hq] at hz i2
            rw [List.dropLast_cons_cons] at hz
            rcases List.mem_cons.1 hz with rfl | hz
            · exact k3 hzf
            · exact i2 z hz hzf
      · rw [if_neg hc] at h ⊢
        dsimp only at h ⊢
        obtain ⟨i1, i2⟩ := search_none (y :: r) _ _ h
        obtain ⟨k1, k2, k3⟩ := key i1
        refine ⟨k1, ?_⟩
        intro z hz hzf
        cases hq : (search n (off + x.size) (y :: r) best2).1 with
        | nil => rw [hq] at hz; cases hz
        | cons a s =>
          rw [hq] at hz i2
          rw [List.dropLast_cons_cons] at hz
          rcases List.mem_cons.1 hz with rfl | hz
          · exact k2 hzf
          · exact i2 z hz hzf

theorem find_none {n : Nat} (l : List Piece) (h : (find n l).2 = none) :
    ∀ x ∈ (find n l).1.dropLast, x.free = true → x.size < n := by
  match l, h with
  | [], h => intro x hx; cases hx
  | [x], h =>
    by_cases hc : x.free = true ∧ n ≤ x.size
    · simp [find, if_pos hc] at h
    · intro y hy
      simp only [find, if_neg hc] at hy
      cases hy
  | x :: y :: r, h =>
    have hs := search_none (n := n) (x :: y :: r) 0 none
    have ef : find n (x :: y :: r) = (match search n 0 (x :: y :: r) none with
      | (l', some (o, s)) => (Blocks.take n o 0 l', some (o + (s - (halve n 64 s).2)))
      | (l', none) => (l', none)) := rfl
    rw [ef] at h ⊢
    revert hs h
    rcases search n 0 (x :: y :: r) none with ⟨l1, _ | ⟨o1, s1⟩⟩
    · intro _ hs; exact (hs rfl).2
    · intro h _; cases h

/-- **C73** When a request is refused, no block of the memory (as it is afterwards) could have served it, except possibly the very last
one. -/
theorem C73_refused_partial (data : Int) (total : Nat) (b b' : Buddy) (live : List Owned) (hA : BuddyArgs total)
    (h : BHist data total b live) (size count : Nat) (zero : Bool) (hsz : size * count < 2 ^ 62)
    (hr : buddyAlloc size count zero true b = .ok (none, b')) :
    ∃ l, Laid b'.mem b'.tail b'.head l ∧ ∀ x ∈ l.dropLast, x.free = true → x.size < size * count + 16 := by
  obtain ⟨hh, ht, _, bs, hT, _⟩ := h.inv hA
  obtain ⟨hL, hB⟩ := laid_of_tiled hT
  obtain ⟨mem', e1, _, e⟩ := buddyAlloc_exact hA hh ht hL hB size count zero true hsz
  rw [hr] at e
  generalize (bs.map fun b => (⟨b.size, b.free⟩ : Piece)) = l at e e1
  cases hq : (request (size * count) l).2 with
  | some o => rw [hq] at e; simp at e
  | none =>
    rw [hq] at e
    simp only [if_true, Out.ok.injEq, Prod.mk.injEq, true_and] at e
    subst e
    refine ⟨_, by dsimp only; rw [hh, ht]; exact e1, ?_⟩
    unfold request at hq ⊢
    rcases e1 : find (size * count + 16) l with ⟨l1, _ | o⟩
    · rw [e1] at hq
      dsimp only at hq ⊢
      have := find_none (n := size * count + 16) (joined l1)
      rcases e2 : find (size * count + 16) (joined l1) with ⟨l2, _ | o⟩
      · rw [e2] at this
        exact this rfl
      · rw [e2] at hq; cases hq
    · rw [e1] at hq; cases hq

/-- The condition is met: see `C73_violated` (the same session with NULL on failure). -/
example : ∃ b b', BHist 4096 128 b [] ∧ buddyAlloc 112 1 false true b = .ok (none, b') := by
  obtain ⟨as, b, t⟩ := strayJoin_trace
  have := C110_next 4096 128 _ as b [] ⟨7, by decide, by decide, by decide⟩ t 112 1 false true (by decide)
  rw [show (request (112 * 1) (replay 128 strayJoin).1).2 = none by decide +kernel] at this
  simp only [if_true] at this
  obtain ⟨b', e⟩ := this
  exact ⟨b, b', t.hist, e⟩

/-- **C73** (violated, for good) Blocks that are not buddies are joined, so that the parts of the memory can never be put together
again: after `strayJoin` nothing is in use, and the 112 bytes a fresh allocator of 128 bytes grants are refused, now and however
often they are requested. -/
theorem C73_violated_forever :
    (∃ p b', buddyAlloc 112 1 false false (createBuddy 4096 128 (fun _ => 7)) = .ok (some p, b')) ∧
    ∃ b : Buddy, BuddyArgs 128 ∧ BHist 4096 128 b [] ∧
      ∀ b', Retried 112 b b' → buddyAlloc 112 1 false false b' = .longjmp := by
  have hA : BuddyArgs 128 := ⟨7, by decide, by decide, by decide⟩
  refine ⟨?_, ?_⟩
  · obtain ⟨p, b', h, _⟩ := C73_fresh_grants_partial 4096 128 (fun _ => 7) hA 112 1 false false (by decide)
    exact ⟨p, b', h⟩
  · obtain ⟨as, b, t⟩ := strayJoin_trace
    refine ⟨b, hA, t.hist, ?_⟩
    have hfix : request (112 * 1) [⟨32, true⟩, ⟨64, true⟩, ⟨32, true⟩] = ([⟨32, true⟩, ⟨64, true⟩, ⟨32, true⟩], none) := by decide +kernel
    have key : ∀ b', Retried 112 b b' → ∃ rs as, Trace 4096 128 rs as b' [] ∧ (replay 128 rs).1 = [⟨32, true⟩, ⟨64, true⟩, ⟨32, true⟩] := by
      intro b' hr
      induction hr with
      | start => exact ⟨_, as, t, by decide +kernel⟩
      | @again b1 b2 z _ e ih =>
        obtain ⟨rs, as', t', e'⟩ := ih
        refine ⟨_, _, .allocFailed t' (by decide) e, ?_⟩
        simp only [replay, e', hfix]
    intro b' hr
    obtain ⟨rs, as', t', e'⟩ := key b' hr
    have := C110_next 4096 128 rs as' b' [] hA t' 112 1 false false (by decide)
    rw [e', hfix] at this
    simpa using this

end Flo
