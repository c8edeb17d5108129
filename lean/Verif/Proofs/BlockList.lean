import Verif.Spec.BlockList
import Verif.Proofs.BuddyFit
/-!
# The buddy allocator follows the machine on lists of blocks
-/
namespace Flo
open Spec Spec.Blocks

def Big (l : List Piece) : Prop := ∀ x ∈ l, Pow2 x.size

def bsum (l : List Piece) : Nat := (l.map Piece.size).sum

theorem bsum_cons (x : Piece) (l : List Piece) : bsum (x :: l) = x.size + bsum l := by simp [bsum]
theorem bsum_append (l l' : List Piece) : bsum (l ++ l') = bsum l + bsum l' := by simp [bsum]

theorem Big.cons {x : Piece} {l : List Piece} (h : Big (x :: l)) : Pow2 x.size ∧ Big l :=
  ⟨h x (by simp), fun y hy => h y (by simp [hy])⟩

theorem big_cons {x : Piece} {l : List Piece} (h : Pow2 x.size) (h' : Big l) : Big (x :: l) := by
  intro y hy
  rcases List.mem_cons.1 hy with rfl | hy
  · exact h
  · exact h' y hy

theorem big_append {l l' : List Piece} (h : Big l) (h' : Big l') : Big (l ++ l') := by
  intro y hy
  rcases List.mem_append.1 hy with hy | hy
  · exact h y hy
  · exact h' y hy

theorem laid_sum {m : Int → UInt8} {t : Int} : ∀ {l : List Piece} {p : Int}, Laid m t p l → p + bsum l = t
  | [], p, h => by have : p = t := h; simp [bsum]; exact this
  | x :: r, p, ⟨_, _, _, h⟩ => by
    have := laid_sum h
    rw [bsum_cons]; push_cast; omega

theorem laid_unique {m : Int → UInt8} {t : Int} : ∀ {l l' : List Piece} {p : Int}, Laid m t p l → Laid m t p l' → l = l'
  | [], [], _, _, _ => rfl
  | [], _ :: _, p, h, ⟨h', _⟩ => by have : p = t := h; omega
  | _ :: _, [], p, ⟨h', _⟩, h => by have : p = t := h; omega
  | ⟨s, f⟩ :: r, ⟨s', f'⟩ :: r', p, ⟨_, h2, h3, h4⟩, ⟨_, g2, g3, g4⟩ => by
    dsimp only at h2 h3 g2 g3 h4 g4
    have e : s = s' := h2.symm.trans g2
    subst e
    have e : f = f' := h3.symm.trans g3
    subst e
    rw [laid_unique h4 g4]

theorem laid_congr {m m' : Int → UInt8} {t : Int} : ∀ {l : List Piece} {p : Int}, Laid m t p l → Big l →
    (∀ z, p ≤ z → z < t → m' z = m z) → Laid m' t p l
  | [], _, h, _, _ => h
  | x :: r, p, ⟨h1, h2, h3, h4⟩, hB, hm => by
    obtain ⟨hx, hr⟩ := hB.cons
    have hge := hx.ge
    have hs := laid_sum h4
    refine ⟨h1, ?_, ?_, laid_congr h4 hr fun z hz hz' => hm z (by omega) hz'⟩
    · exact (load64_congr fun z hz hz' => hm z (by omega) (by omega)).trans h2
    · refine Eq.trans ?_ h3
      unfold bFree
      rw [hm _ (by omega) (by omega)]

/-- The rear of a list of blocks. -/
theorem laid_rear {m : Int → UInt8} {t : Int} : ∀ {l l' : List Piece} {p : Int}, Laid m t p (l ++ l') → Laid m t (p + bsum l) l'
  | [], _, p, h => by simpa [bsum] using h
  | x :: r, l', p, ⟨_, _, _, h⟩ => by
    have := laid_rear (l := r) h
    rw [bsum_cons]
    push_cast
    rwa [← add_assoc]

/-- Replacing the rear of a list of blocks. -/
theorem laid_replace {m m' : Int → UInt8} {t : Int} : ∀ {l l1 l2 : List Piece} {p : Int}, Laid m t p (l ++ l1) → Big l →
    (∀ z, p ≤ z → z < p + bsum l → m' z = m z) → Laid m' t (p + bsum l) l2 → Laid m' t p (l ++ l2)
  | [], _, _, p, _, _, _, h => by simpa [bsum] using h
  | x :: r, l1, l2, p, ⟨h1, h2, h3, h4⟩, hB, hm, h => by
    obtain ⟨hx, hr⟩ := hB.cons
    have hge := hx.ge
    rw [bsum_cons] at hm h
    push_cast at hm h
    rw [← add_assoc] at h
    refine ⟨h1, ?_, ?_, laid_replace h4 hr (fun z hz hz' => hm z (by omega) (by omega)) h⟩
    · exact (load64_congr fun z hz hz' => hm z (by omega) (by omega)).trans h2
    · refine Eq.trans ?_ h3
      unfold bFree
      rw [hm _ (by omega) (by omega)]

/-- Bytes behind a header are not looked at. -/
theorem laid_body {m m' : Int → UInt8} {t p : Int} {pre post : List Piece} {x : Piece} (h : Laid m t p (pre ++ x :: post))
    (hB : Big (pre ++ x :: post)) (hm : ∀ z, z < p + bsum pre + 16 ∨ p + bsum pre + x.size ≤ z → m' z = m z) :
    Laid m' t p (pre ++ x :: post) := by
  have hx : Pow2 x.size := hB x (by simp)
  have hge := hx.ge
  have hpost : Big post := fun y hy => hB y (by simp [hy])
  refine laid_replace h (fun y hy => hB y (by simp [hy])) (fun z hz hz' => hm z (by omega)) ?_
  obtain ⟨h1, h2, h3, h4⟩ := laid_rear h
  refine ⟨h1, ?_, ?_, laid_congr h4 hpost fun z hz hz' => hm z (by omega)⟩
  · exact (load64_congr fun z hz hz' => hm z (by omega)).trans h2
  · refine Eq.trans ?_ h3
    unfold bFree
    rw [hm _ (by omega)]

/-- Changing the flag of a block. -/
theorem laid_flag {m : Int → UInt8} {t p : Int} {pre post : List Piece} {s : Nat} {f f' : Bool} (h : Laid m t p (pre ++ ⟨s, f⟩ :: post))
    (hB : Big (pre ++ ⟨s, f⟩ :: post)) : Laid (setFree (p + bsum pre) f' m) t p (pre ++ ⟨s, f'⟩ :: post) := by
  have hx : Pow2 s := hB ⟨s, f⟩ (by simp)
  have hge := hx.ge
  have hpost : Big post := fun y hy => hB y (by simp [hy])
  refine laid_replace h (fun y hy => hB y (by simp [hy])) (fun z hz hz' => setFree_other (by omega)) ?_
  obtain ⟨h1, h2, h3, h4⟩ := laid_rear h
  dsimp only at h2 h3 h4
  have h5 : Laid (setFree (p + bsum pre) f' m) t (p + bsum pre + s) post :=
    laid_congr h4 hpost fun z hz hz' => setFree_other (by omega)
  refine ⟨h1, ?_, ?_, h5⟩
  · rw [setFree_size]; exact h2
  · exact setFree_read

theorem laid_of_tiled {m : Int → UInt8} {t : Int} : ∀ {bs : List Blk} {h : Int}, Tiled m t h bs →
    Laid m t h (bs.map fun b => ⟨b.size, b.free⟩) ∧ Big (bs.map fun b => ⟨b.size, b.free⟩)
  | [], _, h => ⟨h, by intro x hx; cases hx⟩
  | b :: bs, h, ⟨h1, h2, h3, h4⟩ => by
    obtain ⟨i1, i2⟩ := laid_of_tiled h4
    have := h4.le
    have := h3.ge
    exact ⟨⟨by omega, by rw [← h1]; exact h2.1, by rw [← h1]; exact h2.2, i1⟩, big_cons h3 i2⟩

theorem tiled_place {m : Int → UInt8} {t : Int} : ∀ {pre : List Blk} {k : Blk} {post : List Blk} {h : Int}, Tiled m t h (pre ++ k :: post) →
    k.addr = h + bsum (pre.map fun b => ⟨b.size, b.free⟩)
  | [], _, _, h, ⟨h1, _⟩ => by simpa [bsum] using h1
  | b :: pre, k, post, h, ⟨_, _, _, h4⟩ => by
    have := tiled_place (pre := pre) h4
    rw [List.map_cons, bsum_cons]
    push_cast
    omega

/-! ## The search -/

def BestOK (mem : Int → UInt8) (h : Int) (off : Nat) (best : Option (Nat × Nat)) : Prop :=
  ∀ o s, best = some (o, s) → bSize mem (h + o) = s ∧ (o = off ∨ o + 8 ≤ off)

def placed (h : Int) (best : Option (Nat × Nat)) : Option Int := best.map fun q => h + q.1

theorem smaller_rel {mem : Int → UInt8} {h p : Int} {off0 off n s : Nat} {f : Bool} {best : Option (Nat × Nat)} (hb : BestOK mem h off0 best)
    (hp : p = h + off) :
    (if f = true ∧ n ≤ s ∧ betterThan mem s (placed h best) = true then some p else placed h best) =
      placed h (if f = true then smaller n off s best else best) := by
  cases f with
  | false => simp
  | true =>
    cases best with
    | none =>
      by_cases hn : n ≤ s <;> simp [placed, betterThan, smaller, hn, hp]
    | some q =>
      obtain ⟨o, b⟩ := q
      have e := (hb o b rfl).1
      by_cases hn : n ≤ s <;> by_cases hs : s < b <;> simp [placed, betterThan, smaller, hn, hs, hp, e]

theorem smaller_ok {mem : Int → UInt8} {h : Int} {off n s : Nat} {off0 off1 : Nat} {f : Bool} {best : Option (Nat × Nat)} (hb : BestOK mem h off0 best)
    (hs : bSize mem (h + off) = s) (h1 : off0 = off1 ∨ off0 + 8 ≤ off1) (h2 : off = off1 ∨ off + 8 ≤ off1) :
    BestOK mem h off1 (if f = true then smaller n off s best else best) := by
  have hw : BestOK mem h off1 best := fun o b e => ⟨(hb o b e).1, by have := (hb o b e).2; omega⟩
  cases f with
  | false => simpa using hw
  | true =>
    rw [if_pos rfl]
    intro o b e
    cases best with
    | none =>
      simp only [smaller] at e
      split at e
      · cases e; exact ⟨hs, h2⟩
      · cases e
    | some q =>
      obtain ⟨o', b'⟩ := q
      simp only [smaller] at e
      split at e
      · cases e; exact ⟨hs, h2⟩
      · exact hw o b e

theorem noLarger_rel {mem : Int → UInt8} {h p : Int} {off n s : Nat} {best : Option (Nat × Nat)} (hb : BestOK mem h off best)
    (hp : p = h + off) :
    (if n ≤ s ∧ atLeastAsGood mem s (placed h best) = true then some p else placed h best) = placed h (noLarger n off s best) := by
  cases best with
  | none =>
    by_cases hn : n ≤ s <;> simp [placed, atLeastAsGood, noLarger, hn, hp]
  | some q =>
    obtain ⟨o, b⟩ := q
    have e := (hb o b rfl).1
    by_cases hn : n ≤ s <;> by_cases hs : s ≤ b <;> simp [placed, atLeastAsGood, noLarger, hn, hs, hp, e]

theorem noLarger_ok {mem : Int → UInt8} {h : Int} {off n s off1 : Nat} {best : Option (Nat × Nat)} (hb : BestOK mem h off best)
    (hs : bSize mem (h + off) = s) (h2 : off + 8 ≤ off1) : BestOK mem h off1 (noLarger n off s best) := by
  intro o b e
  cases best with
  | none =>
    simp only [noLarger] at e
    split at e
    · cases e; exact ⟨hs, .inr h2⟩
    · cases e
  | some q =>
    obtain ⟨o', b'⟩ := q
    simp only [noLarger] at e
    split at e
    · cases e; exact ⟨hs, .inr h2⟩
    · have := hb o b e
      exact ⟨this.1, by omega⟩

theorem grow_rel {h : Int} {off s : Nat} {best : Option (Nat × Nat)} : placed h (grow off s best) = placed h best := by
  cases best with
  | none => rfl
  | some q =>
    obtain ⟨o, b⟩ := q
    unfold grow
    dsimp only
    split
    · next e => subst e; rfl
    · rfl

theorem grow_ok {mem mem' : Int → UInt8} {h : Int} {off s : Nat} {best : Option (Nat × Nat)} (hb : BestOK mem h off best)
    (hs : bSize mem' (h + off) = s) (hm : ∀ z, z < h + off → mem' z = mem z) : BestOK mem' h off (grow off s best) := by
  intro o b e
  cases best with
  | none => cases e
  | some q =>
    obtain ⟨o', b'⟩ := q
    unfold grow at e
    dsimp only at e
    split at e
    · next he => cases e; exact ⟨hs, .inl rfl⟩
    · next he =>
      cases e
      obtain ⟨e1, e2⟩ := hb o b rfl
      refine ⟨(load64_congr fun z hz hz' => hm z (by omega)).trans e1, e2⟩

theorem findLoop_exact {size : Nat} {h t : Int} (hlt : t - h < 2 ^ 63) :
    ∀ (f : Nat) (l : List Piece) (off : Nat) (m buddy : Int) (best : Option (Nat × Nat)) (mem : Int → UInt8),
      m = h + off → Laid mem t m l → Big l → (∀ x r, l = x :: r → buddy = m + x.size) → BestOK mem h off best → l.length < f →
      ∃ mem', findLoop size t f m buddy (placed h best) mem = .ok (placed h (search size off l best).2, mem') ∧
        Laid mem' t m (search size off l best).1 ∧ Big (search size off l best).1 ∧ ∀ z, z < m ∨ t ≤ z → mem' z = mem z := by
  intro f
  induction f with
  | zero => intro l off m buddy best mem _ _ _ _ _ hf; omega
  | succ f ih =>
    intro l off m buddy best mem hmo hL hB hbud hO hf
    match l, hL, hB, hbud, hf with
    | [], hL, hB, hbud, hf =>
      have : m = t := hL
      exact ⟨mem, by rw [findLoop, if_neg (by omega)]; rfl, hL, hB, fun _ _ => rfl⟩
    | [x], hL, hB, hbud, hf =>
      have hbu := hbud x [] rfl
      have : m + x.size = t := hL.2.2.2
      exact ⟨mem, by rw [findLoop, if_neg (by omega)]; rfl, hL, hB, fun _ _ => rfl⟩
    | x :: y :: r, hL, hB, hbud, hf =>
      have hbu := hbud x _ rfl
      obtain ⟨hx, hyr⟩ := hB.cons
      obtain ⟨hy, hr⟩ := hyr.cons
      have hL' := hL
      obtain ⟨h1, h2, h3, hLy⟩ := hL'
      have hLy' := hLy
      obtain ⟨g1, g2, g3, hLr⟩ := hLy'
      have hxge := hx.ge
      have hyge := hy.ge
      have hsr := laid_sum hLr
      rw [← hbu] at g1 g2 g3 hLy hLr
      have hnext : ∀ mem' : Int → UInt8, (∀ z, m + x.size ≤ z → z < t → mem' z = mem z) →
          ∀ a s, r = a :: s → (if buddy + ↑y.size < t then nextBuddy mem' (buddy + ↑y.size) else buddy) = buddy + ↑y.size + ↑a.size := by
        rintro mem' hm' a s rfl
        obtain ⟨ha, hs⟩ := hr.cons
        have hage := ha.ge
        obtain ⟨k1, k2, _, _⟩ := hLr
        rw [bsum_cons] at hsr
        push_cast at hsr
        rw [if_pos k1]
        unfold nextBuddy
        have : bSize mem' (buddy + ↑y.size) = a.size :=
          (load64_congr fun z hz hz' => hm' z (by omega) (by omega)).trans k2
        rw [this]
      rw [findLoop, if_pos (by omega)]
      by_cases hm : x.free = true ∧ y.free = true ∧ x.size = y.size
      · obtain ⟨hxf, hyf, hxy⟩ := id hm
        have hmod : x.size * 2 % wordMod = x.size * 2 := Nat.mod_eq_of_lt (by unfold wordMod; omega)
        rw [h2, h3, g2, g3, if_pos hm, hmod]
        dsimp only
        generalize hmem1 : setSize m (x.size * 2) mem = mem1
        have ho : ∀ z, z < m ∨ m + 8 ≤ z → mem1 z = mem z := fun z hz => by rw [← hmem1]; exact setSize_other hz
        have hs1 : bSize mem1 m = x.size * 2 := by rw [← hmem1]; exact setSize_read (by omega)
        have hf1 : bFree mem1 m = true := by rw [← hmem1, setSize_free, h3, hxf]
        have hsb : bSize mem1 buddy = y.size := (load64_congr fun z hz hz' => ho z (by omega)).trans g2
        have hnb : nextBuddy mem1 buddy = buddy + y.size := by unfold nextBuddy; rw [hsb]
        have hO1 : BestOK mem1 h off (grow off (x.size * 2) best) := grow_ok hO (by rw [← hmo]; exact hs1) fun z hz => ho z (by omega)
        have hLr1 : Laid mem1 t (buddy + y.size) r := laid_congr hLr hr fun z hz hz' => ho z (by omega)
        obtain ⟨mem', e1, e2, e3, e4⟩ := ih r (off + x.size * 2) (buddy + y.size)
          (if buddy + ↑y.size < t then nextBuddy mem1 (buddy + ↑y.size) else buddy) (noLarger size off (x.size * 2) (grow off (x.size * 2) best)) mem1
          (by push_cast; omega) hLr1 hr (hnext mem1 fun z hz hz' => ho z (by omega))
          (noLarger_ok hO1 (by rw [← hmo]; exact hs1) (by omega)) (by simp only [List.length_cons] at hf; omega)
        have hrel := noLarger_rel (n := size) (s := x.size * 2) hO1 hmo
        rw [grow_rel] at hrel
        rw [search, if_pos hm]
        dsimp only
        refine ⟨mem', ?_, ⟨by omega, ?_, ?_, ?_⟩, big_cons (x := ⟨x.size * 2, true⟩) hx.double e3, fun z hz => (e4 z (by omega)).trans (ho z (by omega))⟩
        · rw [hnb, hs1, hrel]; exact e1
        · exact (load64_congr fun z hz hz' => e4 z (by omega)).trans hs1
        · refine Eq.trans ?_ hf1
          unfold bFree
          rw [e4 _ (by omega)]
        · have e : m + ((x.size * 2 : Nat) : Int) = buddy + y.size := by push_cast; omega
          dsimp only
          rw [e]
          exact e2
      · rw [h2, h3, g2, g3, if_neg hm]
        dsimp only
        rw [smaller_rel hO hmo]
        have hO1 : BestOK mem h off (if x.free = true then smaller size off x.size best else best) :=
          smaller_ok hO (by rw [← hmo]; exact h2) (.inl rfl) (.inl rfl)
        have hpb : buddy = h + ((off + x.size : Nat) : Int) := by push_cast; omega
        rw [smaller_rel (off := off + x.size) hO1 hpb]
        have hsb : bSize mem (h + ((off + x.size : Nat) : Int)) = y.size := by rw [← hpb]; exact g2
        rw [search, if_neg hm]
        dsimp only
        have hnb : nextBuddy mem buddy = buddy + y.size := by unfold nextBuddy; rw [g2]
        by_cases hc : x.size < y.size
        · rw [if_pos hc, if_pos hc, hnb]
          obtain ⟨mem', e1, e2, e3, e4⟩ := ih r (off + x.size + y.size) (buddy + y.size)
            (if buddy + ↑y.size < t then nextBuddy mem (buddy + ↑y.size) else buddy) _ mem
            (by push_cast; omega) hLr hr (hnext mem fun _ _ _ => rfl)
            (smaller_ok (n := size) (f := y.free) (off1 := off + x.size + y.size) hO1 hsb (.inr (by omega)) (.inr (by omega))) (by simp only [List.length_cons] at hf; omega)
          refine ⟨mem', e1, ?_, big_cons hx (big_cons hy e3), fun z hz => e4 z (by omega)⟩
          refine laid_replace (l := [x, y]) (l1 := r) hL (big_cons hx (big_cons hy (by intro z hz; cases hz))) ?_ ?_
          · intro z hz hz'
            simp only [bsum, List.map_cons, List.map_nil, List.sum_cons, List.sum_nil] at hz'
            push_cast at hz'
            exact e4 z (by omega)
          · simp only [bsum, List.map_cons, List.map_nil, List.sum_cons, List.sum_nil]
            have e : m + ((x.size + (y.size + 0) : Nat) : Int) = buddy + y.size := by push_cast; omega
            rw [e]
            exact e2
        · rw [if_neg hc, if_neg hc, hnb]
          obtain ⟨mem', e1, e2, e3, e4⟩ := ih (y :: r) (off + x.size) buddy (buddy + y.size) _ mem
            hpb hLy hyr (by rintro a s ⟨⟩; rfl)
            (smaller_ok (n := size) (f := y.free) (off1 := off + x.size) hO1 hsb (.inr (by omega)) (.inl rfl)) (by simp only [List.length_cons] at hf ⊢; omega)
          refine ⟨mem', e1, ?_, big_cons hx e3, fun z hz => e4 z (by omega)⟩
          refine laid_replace (l := [x]) (l1 := y :: r) hL (big_cons hx (by intro z hz; cases hz)) ?_ ?_
          · intro z hz hz'
            simp only [bsum, List.map_cons, List.map_nil, List.sum_cons, List.sum_nil] at hz'
            push_cast at hz'
            exact e4 z (by omega)
          · simp only [bsum, List.map_cons, List.map_nil, List.sum_cons, List.sum_nil]
            have e : m + ((x.size + 0 : Nat) : Int) = buddy := by push_cast; omega
            rw [e]
            exact e2

/-! ## Joining -/

theorem join_length : ∀ l, (join l).1.length ≤ l.length ∧ ((join l).2 = true → (join l).1.length < l.length)
  | [] => by simp [join]
  | [x] => by simp [join]
  | x :: y :: r => by
    obtain ⟨h1, h2⟩ := join_length r
    obtain ⟨g1, g2⟩ := join_length (y :: r)
    simp only [List.length_cons] at g1 g2
    rw [join]
    split
    · simp only [List.length_cons]; exact ⟨by omega, fun h => by have := h2 h; omega⟩
    · split
      · simp only [List.length_cons]; exact ⟨by omega, fun h => by have := g2 h; omega⟩
      · split
        · simp only [List.length_cons]; exact ⟨by omega, fun h => by omega⟩
        · simp only [List.length_cons]; exact ⟨by omega, fun h => by have := h2 h; omega⟩

theorem joinAll_enough : ∀ (f : Nat) (l : List Piece), l.length ≤ f → joinAll f l = joinAll (f + 1) l
  | 0, l, h => by
    have : l = [] := List.length_eq_zero_iff.1 (by omega)
    subst this
    rfl
  | f + 1, l, h => by
    rw [joinAll, joinAll]
    by_cases hp : (join l).2 = true
    · rw [if_pos hp, if_pos hp]
      exact joinAll_enough f _ (by have := (join_length l).2 hp; omega)
    · rw [if_neg hp, if_neg hp]

theorem joinAll_joined (l : List Piece) : ∀ k, joinAll (l.length + k) l = joined l
  | 0 => rfl
  | k + 1 => by
    rw [← joinAll_joined l k]
    exact (joinAll_enough (l.length + k) l (Nat.le_add_right _ _)).symm

theorem coalesceLoop_exact {t : Int} :
    ∀ (f : Nat) (l : List Piece) (m buddy : Int) (noC : Bool) (mem : Int → UInt8), t - m < 2 ^ 63 →
      Laid mem t m l → Big l → (∀ x r, l = x :: r → buddy = m + x.size) → l.length < f →
      ∃ mem', coalesceLoop t f m buddy noC mem = .ok (noC && !(join l).2, mem') ∧
        Laid mem' t m (join l).1 ∧ Big (join l).1 ∧ ∀ z, z < m ∨ t ≤ z → mem' z = mem z := by
  intro f
  induction f with
  | zero => intro l m buddy noC mem _ _ _ _ hf; omega
  | succ f ih =>
    intro l m buddy noC mem hlt hL hB hbud hf
    match l, hL, hB, hbud, hf with
    | [], hL, hB, hbud, hf =>
      have : m = t := hL
      exact ⟨mem, by rw [coalesceLoop, if_neg (by omega)]; simp [join], hL, hB, fun _ _ => rfl⟩
    | [x], hL, hB, hbud, hf =>
      have hbu := hbud x [] rfl
      have : m + x.size = t := hL.2.2.2
      exact ⟨mem, by rw [coalesceLoop, if_neg (by omega)]; simp [join], hL, hB, fun _ _ => rfl⟩
    | x :: y :: r, hL, hB, hbud, hf =>
      have hbu := hbud x _ rfl
      obtain ⟨hx, hyr⟩ := hB.cons
      obtain ⟨hy, hr⟩ := hyr.cons
      have hL' := hL
      obtain ⟨h1, h2, h3, hLy⟩ := hL'
      have hLy' := hLy
      obtain ⟨g1, g2, g3, hLr⟩ := hLy'
      have hxge := hx.ge
      have hyge := hy.ge
      have hsr := laid_sum hLr
      rw [← hbu] at g1 g2 g3 hLy hLr
      simp only [List.length_cons] at hf
      have hnext : ∀ a s, r = a :: s → (if buddy + ↑y.size < t then nextBuddy mem (buddy + ↑y.size) else buddy) = buddy + ↑y.size + ↑a.size := by
        rintro a s rfl
        obtain ⟨k1, k2, _, _⟩ := hLr
        rw [if_pos k1]
        unfold nextBuddy
        rw [k2]
      have hnb : nextBuddy mem buddy = buddy + y.size := by unfold nextBuddy; rw [g2]
      have jump : ∃ mem', coalesceLoop t f (buddy + y.size) (if buddy + ↑y.size < t then nextBuddy mem (buddy + ↑y.size) else buddy) noC mem =
          .ok (noC && !(join r).2, mem') ∧ Laid mem' t m (x :: y :: (join r).1) ∧ Big (x :: y :: (join r).1) ∧
          ∀ z, z < m ∨ t ≤ z → mem' z = mem z := by
        obtain ⟨mem', e1, e2, e3, e4⟩ := ih r (buddy + y.size)
          (if buddy + ↑y.size < t then nextBuddy mem (buddy + ↑y.size) else buddy) noC mem (by omega) hLr hr hnext (by omega)
        refine ⟨mem', e1, ?_, big_cons hx (big_cons hy e3), fun z hz => e4 z (by omega)⟩
        refine laid_replace (l := [x, y]) (l1 := r) hL (big_cons hx (big_cons hy (by intro z hz; cases hz))) ?_ ?_
        · intro z hz hz'
          simp only [bsum, List.map_cons, List.map_nil, List.sum_cons, List.sum_nil] at hz'
          push_cast at hz'
          exact e4 z (by omega)
        · simp only [bsum, List.map_cons, List.map_nil, List.sum_cons, List.sum_nil]
          have e : m + ((x.size + (y.size + 0) : Nat) : Int) = buddy + y.size := by push_cast; omega
          rw [e]
          exact e2
      rw [coalesceLoop, if_pos (by omega), h2, h3, g2, g3, join]
      dsimp only
      by_cases hc : x.size < y.size
      · rw [if_pos hc, if_pos hc, hnb]
        exact jump
      · rw [if_neg hc, if_neg hc]
        by_cases hc2 : y.size < x.size
        · rw [if_pos hc2, if_pos hc2, hnb]
          obtain ⟨mem', e1, e2, e3, e4⟩ := ih (y :: r) buddy (buddy + y.size) noC mem (by omega) hLy hyr (by rintro a s ⟨⟩; rfl)
            (by simp only [List.length_cons]; omega)
          refine ⟨mem', e1, ?_, big_cons hx e3, fun z hz => e4 z (by omega)⟩
          refine laid_replace (l := [x]) (l1 := y :: r) hL (big_cons hx (by intro z hz; cases hz)) ?_ ?_
          · intro z hz hz'
            simp only [bsum, List.map_cons, List.map_nil, List.sum_cons, List.sum_nil] at hz'
            push_cast at hz'
            exact e4 z (by omega)
          · simp only [bsum, List.map_cons, List.map_nil, List.sum_cons, List.sum_nil]
            have e : m + ((x.size + 0 : Nat) : Int) = buddy := by push_cast; omega
            rw [e]
            exact e2
        · rw [if_neg hc2, if_neg hc2]
          by_cases hm : x.free = true ∧ y.free = true
          · have hmod : x.size * 2 % wordMod = x.size * 2 := Nat.mod_eq_of_lt (by unfold wordMod; omega)
            rw [if_pos hm, if_pos hm, hmod]
            generalize hmem1 : setSize m (x.size * 2) mem = mem1
            have ho : ∀ z, z < m ∨ m + 8 ≤ z → mem1 z = mem z := fun z hz => by rw [← hmem1]; exact setSize_other hz
            have hs1 : bSize mem1 m = x.size * 2 := by rw [← hmem1]; exact setSize_read (by omega)
            have hf1 : bFree mem1 m = true := by rw [← hmem1, setSize_free, h3, hm.1]
            have hnm : nextBuddy mem1 m = buddy + y.size := by unfold nextBuddy; rw [hs1]; push_cast; omega
            have hLr1 : Laid mem1 t (buddy + y.size) r := laid_congr hLr hr fun z hz hz' => ho z (by omega)
            rw [hnm]
            have last : ∀ mem', Laid mem' t (buddy + y.size) (join r).1 → Big (join r).1 → (∀ z, z < buddy + y.size ∨ t ≤ z → mem' z = mem1 z) →
                Laid mem' t m (⟨x.size * 2, true⟩ :: (join r).1) ∧ Big (⟨x.size * 2, true⟩ :: (join r).1) ∧ ∀ z, z < m ∨ t ≤ z → mem' z = mem z := by
              intro mem' e2 e3 e4
              refine ⟨⟨by omega, ?_, ?_, ?_⟩, big_cons (x := ⟨x.size * 2, true⟩) hx.double e3, fun z hz => (e4 z (by omega)).trans (ho z (by omega))⟩
              · exact (load64_congr fun z hz hz' => e4 z (by omega)).trans hs1
              · refine Eq.trans ?_ hf1
                unfold bFree
                rw [e4 _ (by omega)]
              · have e : m + ((x.size * 2 : Nat) : Int) = buddy + y.size := by push_cast; omega
                dsimp only
                rw [e]
                exact e2
            cases r with
            | nil =>
              have : buddy + y.size = t := hLr
              rw [if_neg (by omega)]
              cases f with
              | zero => simp at hf
              | succ f =>
                rw [coalesceLoop, if_neg (by omega)]
                obtain ⟨l1, l2, l3⟩ := last mem1 hLr1 (by intro z hz; cases hz) (fun _ _ => rfl)
                exact ⟨mem1, by simp [join], l1, l2, l3⟩
            | cons a s =>
              have hk := hLr1
              obtain ⟨k1, k2, _, _⟩ := hk
              rw [if_pos k1]
              obtain ⟨mem', e1, e2, e3, e4⟩ := ih (a :: s) (buddy + y.size) (nextBuddy mem1 (buddy + y.size)) false mem1 (by omega) hLr1 hr
                (by rintro a' s' ⟨⟩; unfold nextBuddy; rw [k2]) (by omega)
              obtain ⟨l1, l2, l3⟩ := last mem' e2 e3 e4
              exact ⟨mem', by rw [e1]; simp, l1, l2, l3⟩
          · rw [if_neg hm, if_neg hm, hnb]
            exact jump

theorem coalesce_exact {h t : Int} (hlt : t - h < 2 ^ 63) : ∀ (f : Nat) (l : List Piece) (mem : Int → UInt8), Laid mem t h l → Big l →
    l.length < f → (∀ l' : List Piece, ∀ mem', Laid mem' t h l' → Big l' → l'.length < (t - h).toNat + 1) →
    ∃ mem', coalesceBuddies h t f mem = .ok mem' ∧ Laid mem' t h (joinAll f l) ∧ Big (joinAll f l) ∧
      ∀ z, z < h ∨ t ≤ z → mem' z = mem z := by
  intro f
  induction f with
  | zero => intro l mem _ _ hf; omega
  | succ f ih =>
    intro l mem hL hB hf hfew
    obtain ⟨mem', e1, e2, e3, e4⟩ := coalesceLoop_exact ((t - h).toNat + 1) l h (nextBuddy mem h) true mem hlt hL hB
      (by rintro x r rfl; unfold nextBuddy; rw [hL.2.1]) (hfew l mem hL hB)
    rw [coalesceBuddies, e1, joinAll]
    simp only [Out.bind_ok]
    by_cases hp : (join l).2 = true
    · rw [if_pos hp, hp]
      obtain ⟨mem2, f1, f2, f3, f4⟩ := ih (join l).1 mem' e2 e3 (by have := (join_length l).2 hp; omega) hfew
      exact ⟨mem2, f1, f2, f3, fun z hz => (f4 z hz).trans (e4 z hz)⟩
    · rw [if_neg hp]
      have : (join l).2 = false := by simpa using hp
      rw [this]
      exact ⟨mem', rfl, e2, e3, e4⟩

theorem laid_few {m : Int → UInt8} {h t : Int} {l : List Piece} (hL : Laid m t h l) (hB : Big l) : l.length < (t - h).toNat + 1 := by
  have hs := laid_sum hL
  have : l.length ≤ bsum l := by
    clear hL hs
    induction l with
    | nil => simp
    | cons x r ih =>
      obtain ⟨hx, hr⟩ := hB.cons
      have := hx.ge
      have := ih hr
      rw [bsum_cons, List.length_cons]
      omega
  omega

/-- Joining all that can be joined. -/
theorem coalesce_joined {h t : Int} (hlt : t - h < 2 ^ 63) {l : List Piece} {mem : Int → UInt8} (hL : Laid mem t h l) (hB : Big l) :
    ∃ mem', coalesceBuddies h t ((t - h).toNat + 1) mem = .ok mem' ∧ Laid mem' t h (joined l) ∧ Big (joined l) ∧
      ∀ z, z < h ∨ t ≤ z → mem' z = mem z := by
  have hf := laid_few hL hB
  obtain ⟨mem', e1, e2, e3, e4⟩ := coalesce_exact hlt ((t - h).toNat + 1) l mem hL hB hf fun l' m' h1 h2 => laid_few h1 h2
  have e : joinAll ((t - h).toNat + 1) l = joined l := by
    have := joinAll_joined l ((t - h).toNat + 1 - l.length)
    rwa [show l.length + ((t - h).toNat + 1 - l.length) = (t - h).toNat + 1 by omega] at this
  rw [e] at e2 e3
  exact ⟨mem', e1, e2, e3, e4⟩

/-! ## Halving -/

theorem halve_facts {n : Nat} : ∀ (f s : Nat), Pow2 s → 16 ≤ n → n ≤ s →
    Pow2 (halve n f s).2 ∧ Big (halve n f s).1 ∧ bsum (halve n f s).1 + (halve n f s).2 = s ∧ n ≤ (halve n f s).2
  | 0, s, hp, _, hn => ⟨hp, (by intro x hx; cases hx), by simp [halve, bsum], hn⟩
  | f + 1, s, hp, h16, hn => by
    rw [halve]
    split
    · next hlt =>
      obtain ⟨q1, q2⟩ := hp.half (by omega)
      obtain ⟨e1, e2, e3, e4⟩ := halve_facts f (s / 2) q1 h16 (by omega)
      exact ⟨e1, big_cons (x := ⟨s / 2, true⟩) q1 e2, by dsimp only; rw [bsum_cons]; dsimp only; omega, e4⟩
    · exact ⟨hp, (by intro x hx; cases hx), by simp [bsum], hn⟩

theorem splitLoop_exact {n : Nat} {t : Int} (h16 : 16 ≤ n) : ∀ (g s : Nat) (a : Int) (post : List Piece) (mem : Int → UInt8),
    Laid mem t a (⟨s, true⟩ :: post) → Pow2 s → Big post → t - a < 2 ^ 63 → n ≤ s → s < 2 ^ g →
    ∃ mem', splitLoop n (g + 1) a mem = .ok (a + bsum (halve n g s).1, mem') ∧
      Laid mem' t a ((halve n g s).1 ++ ⟨(halve n g s).2, true⟩ :: post) ∧ ∀ z, z < a ∨ t ≤ z → mem' z = mem z := by
  intro g
  induction g with
  | zero => intro s a post mem _ hp _ _ _ hs; have := hp.ge; simp at hs; omega
  | succ g ih =>
    intro s a post mem hL hp hB hlt hns hs
    have hL' := hL
    obtain ⟨h1, h2, h3, h4⟩ := hL'
    dsimp only at h2 h3 h4
    have hge := hp.ge
    have hsum := laid_sum h4
    have hmod : n * 2 % wordMod = n * 2 := Nat.mod_eq_of_lt (by unfold wordMod; omega)
    rw [splitLoop, hmod, h2, halve]
    by_cases hc : n * 2 < s
    · rw [if_pos hc, if_pos hc]
      dsimp only
      obtain ⟨q1, q2⟩ := hp.half (by omega)
      have hqge := q1.ge
      generalize hm1 : setSize a (s / 2) mem = mem1
      have ho1 : ∀ z, z < a ∨ a + 8 ≤ z → mem1 z = mem z := fun z hz => by rw [← hm1]; exact setSize_other hz
      have hs1 : bSize mem1 a = s / 2 := by rw [← hm1]; exact setSize_read (by omega)
      have hnm : nextBuddy mem1 a = a + ((s / 2 : Nat) : Int) := by unfold nextBuddy; rw [hs1]
      rw [hnm]
      have hq2 : ((s / 2 : Nat) : Int) + ((s / 2 : Nat) : Int) = s := by omega
      generalize hb : a + ((s / 2 : Nat) : Int) = b
      generalize hm2 : setSize b (s / 2) mem1 = mem2
      have ho2 : ∀ z, z < b ∨ b + 8 ≤ z → mem2 z = mem1 z := fun z hz => by rw [← hm2]; exact setSize_other hz
      generalize hm3 : setFree b true mem2 = mem3
      have ho3 : ∀ z, z ≠ b + 8 → mem3 z = mem2 z := fun z hz => by rw [← hm3]; exact setFree_other hz
      have ho : ∀ z, z < a ∨ (a + 8 ≤ z ∧ z < b) ∨ b + 9 ≤ z → mem3 z = mem z := fun z hz =>
        (ho3 z (by omega)).trans ((ho2 z (by omega)).trans (ho1 z (by omega)))
      have hbs : bSize mem3 b = s / 2 := by
        rw [← hm3, setFree_size, ← hm2]; exact setSize_read (by omega)
      have hbf : bFree mem3 b = true := by rw [← hm3]; exact setFree_read
      have has : bSize mem3 a = s / 2 :=
        (load64_congr fun z hz hz' => (ho3 z (by omega)).trans (ho2 z (by omega))).trans hs1
      have haf : bFree mem3 a = true := by
        refine Eq.trans ?_ h3
        unfold bFree
        rw [ho _ (by omega)]
      have hLb : Laid mem3 t b (⟨s / 2, true⟩ :: post) := by
        refine ⟨by omega, hbs, hbf, ?_⟩
        dsimp only
        have e : b + ((s / 2 : Nat) : Int) = a + s := by omega
        rw [e]
        exact laid_congr h4 hB fun z hz hz' => ho z (by omega)
      obtain ⟨mem', e1, e2, e3⟩ := ih (s / 2) b post mem3 hLb q1 hB (by omega) (by omega) (by rw [pow_succ] at hs; omega)
      refine ⟨mem', ?_, ⟨h1, ?_, ?_, ?_⟩, fun z hz => (e3 z (by omega)).trans (ho z (by omega))⟩
      · rw [e1, bsum_cons]
        congr 2
        push_cast
        omega
      · exact (load64_congr fun z hz hz' => e3 z (by omega)).trans has
      · refine Eq.trans ?_ haf
        unfold bFree
        rw [e3 _ (by omega)]
      · dsimp only
        rw [hb]
        exact e2
    · rw [if_neg hc, if_neg hc]
      exact ⟨mem, by simp [bsum], hL, fun _ _ => rfl⟩

theorem splitBuddy_exact {n : Nat} {h t : Int} (h16 : 16 ≤ n) {pre post : List Piece} {s : Nat} {mem : Int → UInt8}
    (hL : Laid mem t h (pre ++ ⟨s, true⟩ :: post)) (hB : Big (pre ++ ⟨s, true⟩ :: post)) (hlt : t - h < 2 ^ 63) (hn : n ≤ s) :
    ∃ mem', splitBuddy (h + bsum pre) n mem = .ok (some (h + bsum pre + bsum (halve n 64 s).1), mem') ∧
      Laid mem' t h (pre ++ ((halve n 64 s).1 ++ ⟨(halve n 64 s).2, true⟩ :: post)) ∧ ∀ z, z < h ∨ t ≤ z → mem' z = mem z := by
  have hs : Pow2 s := hB ⟨s, true⟩ (by simp)
  have hpost : Big post := fun y hy => hB y (by simp [hy])
  have hr := laid_rear hL
  have hsum := laid_sum hL
  rw [bsum_append, bsum_cons] at hsum
  dsimp only at hsum
  push_cast at hsum
  obtain ⟨mem', e1, e2, e3⟩ := splitLoop_exact h16 64 s _ post mem hr hs hpost (by omega) hn (by omega)
  obtain ⟨f1, f2, f3, f4⟩ := halve_facts 64 s hs h16 hn
  have hl := (laid_rear e2).2.1
  dsimp only at hl
  refine ⟨mem', ?_, laid_replace hL (fun y hy => hB y (by simp [hy])) (fun z hz hz' => e3 z (by omega)) e2, fun z hz => e3 z (by omega)⟩
  unfold splitBuddy
  rw [e1]
  simp only [Out.bind_ok]
  rw [hl, if_pos f4]

/-! ## Where the best block is -/

/-- The free block of `s` bytes at the place `o`. -/
def FreeAt (off : Nat) (l : List Piece) (o s : Nat) : Prop := ∃ pre post, l = pre ++ ⟨s, true⟩ :: post ∧ off + bsum pre = o

theorem FreeAt.cons {off o s : Nat} {x : Piece} {l : List Piece} (h : FreeAt (off + x.size) l o s) : FreeAt off (x :: l) o s := by
  obtain ⟨pre, post, rfl, rfl⟩ := h
  exact ⟨x :: pre, post, rfl, by rw [bsum_cons]; omega⟩

theorem FreeAt.lt {off o s : Nat} {l : List Piece} (h : FreeAt off l o s) : off ≤ o := by
  obtain ⟨pre, post, rfl, rfl⟩ := h
  omega

def BestAt (n off : Nat) (l : List Piece) (best : Option (Nat × Nat)) : Prop :=
  ∀ o s, best = some (o, s) → n ≤ s ∧ (o < off ∨ (o = off ∧ ∃ r, l = ⟨s, true⟩ :: r))

theorem search_place {n : Nat} : ∀ (l : List Piece) (off : Nat) (best : Option (Nat × Nat)), Big l → BestAt n off l best →
    ∀ o s, (search n off l best).2 = some (o, s) → n ≤ s ∧ ((o < off ∧ best = some (o, s)) ∨ FreeAt off (search n off l best).1 o s)
  | [], off, best, _, hb, o, s, h => by
    obtain ⟨h1, h2⟩ := hb o s h
    rcases h2 with h2 | ⟨_, r, h2⟩
    · exact ⟨h1, .inl ⟨h2, h⟩⟩
    · cases h2
  | [x], off, best, _, hb, o, s, h => by
    obtain ⟨h1, h2⟩ := hb o s h
    rcases h2 with h2 | ⟨h3, r, h2⟩
    · exact ⟨h1, .inl ⟨h2, h⟩⟩
    · exact ⟨h1, .inr ⟨[], r, h2, by simp [bsum, h3]⟩⟩
  | x :: y :: r, off, best, hB, hb, o, s, h => by
    obtain ⟨hx, hyr⟩ := hB.cons
    obtain ⟨hy, hr⟩ := hyr.cons
    have hxge := hx.ge
    have hyge := hy.ge
    by_cases hm : x.free = true ∧ y.free = true ∧ x.size = y.size
    · rw [search, if_pos hm] at h ⊢
      dsimp only at h ⊢
      have hb1 : ∀ o s, noLarger n off (x.size * 2) (grow off (x.size * 2) best) = some (o, s) →
          (n ≤ s ∧ o < off ∧ best = some (o, s)) ∨ (n ≤ s ∧ o = off ∧ s = x.size * 2) := by
        intro o s e
        have hg : ∀ o s, grow off (x.size * 2) best = some (o, s) → (n ≤ s ∧ o < off ∧ best = some (o, s)) ∨ (n ≤ s ∧ o = off ∧ s = x.size * 2) := by
          intro o s e
          cases best with
          | none => cases e
          | some q =>
            obtain ⟨o', b'⟩ := q
            obtain ⟨k1, k2⟩ := hb o' b' rfl
            simp only [grow] at e
            split at e
            · next he =>
              cases e
              refine .inr ⟨?_, rfl, rfl⟩
              rcases k2 with k2 | ⟨_, r', k2⟩
              · omega
              · have : x.size = b' := by rw [(List.cons.inj k2).1]
                omega
            · next he =>
              cases e
              rcases k2 with k2 | ⟨k3, _⟩
              · exact .inl ⟨k1, k2, rfl⟩
              · exact absurd k3 he
        cases hgr : grow off (x.size * 2) best with
        | none =>
          rw [hgr] at e
          simp only [noLarger] at e
          split at e
          · next hn => cases e; exact .inr ⟨hn, rfl, rfl⟩
          · cases e
        | some q =>
          obtain ⟨o', b'⟩ := q
          rw [hgr] at e
          simp only [noLarger] at e
          split at e
          · next hn => cases e; exact .inr ⟨hn.1, rfl, rfl⟩
          · exact hg o s (hgr.trans e)
      have hA : BestAt n (off + x.size * 2) r (noLarger n off (x.size * 2) (grow off (x.size * 2) best)) := by
        intro o s e
        rcases hb1 o s e with ⟨k1, k2, _⟩ | ⟨k1, k2, _⟩
        · exact ⟨k1, .inl (by omega)⟩
        · exact ⟨k1, .inl (by omega)⟩
      obtain ⟨j1, j2⟩ := search_place r _ _ hr hA o s h
      refine ⟨j1, ?_⟩
      rcases j2 with ⟨j2, j3⟩ | j2
      · rcases hb1 o s j3 with ⟨_, k2, k3⟩ | ⟨_, k2, k3⟩
        · exact .inl ⟨k2, k3⟩
        · subst k3
          exact .inr ⟨[], _, rfl, by simp [bsum, k2]⟩
      · exact .inr (FreeAt.cons (x := ⟨x.size * 2, true⟩) j2)
    · have small : ∀ (best : Option (Nat × Nat)) (f : Bool) (p w o s : Nat), (if f = true then smaller n p w best else best) = some (o, s) →
          best = some (o, s) ∨ (n ≤ s ∧ f = true ∧ o = p ∧ s = w) := by
        intro best f p w o s e
        cases f with
        | false => exact .inl (by simpa using e)
        | true =>
          rw [if_pos rfl] at e
          cases best with
          | none =>
            simp only [smaller] at e
            split at e
            · next hn => cases e; exact .inr ⟨hn, rfl, rfl, rfl⟩
            · cases e
          | some q =>
            obtain ⟨o', b'⟩ := q
            simp only [smaller] at e
            split at e
            · next hn => cases e; exact .inr ⟨hn.1, rfl, rfl, rfl⟩
            · exact .inl e
      rw [search, if_neg hm] at h ⊢
      dsimp only at h ⊢
      generalize hb2 : (if y.free = true then smaller n (off + x.size) y.size (if x.free = true then smaller n off x.size best else best)
        else (if x.free = true then smaller n off x.size best else best)) = best2 at h ⊢
      have key : ∀ o s, best2 = some (o, s) → n ≤ s ∧ ((o < off ∧ best = some (o, s)) ∨ (o = off ∧ x = ⟨s, true⟩) ∨
          (o = off + x.size ∧ y = ⟨s, true⟩)) := by
        intro o s e
        rw [← hb2] at e
        rcases small _ _ _ _ _ _ e with e | ⟨k1, k2, k3, k4⟩
        · rcases small _ _ _ _ _ _ e with e | ⟨k1, k2, k3, k4⟩
          · obtain ⟨j1, j2⟩ := hb o s e
            refine ⟨j1, ?_⟩
            rcases j2 with j2 | ⟨j2, r', j3⟩
            · exact .inl ⟨j2, e⟩
            · exact .inr (.inl ⟨j2, (List.cons.inj j3).1⟩)
          · exact ⟨k1, .inr (.inl ⟨k3, by rw [k4, ← k2]⟩)⟩
        · exact ⟨k1, .inr (.inr ⟨k3, by rw [k4, ← k2]⟩)⟩
      by_cases hc : x.size < y.size
      · rw [if_pos hc] at h ⊢
        dsimp only at h ⊢
        have hA : BestAt n (off + x.size + y.size) r best2 := by
          intro o s e
          obtain ⟨k1, k2⟩ := key o s e
          exact ⟨k1, .inl (by omega)⟩
        obtain ⟨j1, j2⟩ := search_place r _ _ hr hA o s h
        refine ⟨j1, ?_⟩
        rcases j2 with ⟨j2, j3⟩ | j2
        · rcases (key o s j3).2 with k | ⟨k, k'⟩ | ⟨k, k'⟩
          · exact .inl k
          · exact .inr ⟨[], _, by rw [k']; rfl, by simp [bsum, k]⟩
          · exact .inr ⟨[x], _, by rw [k']; rfl, by simp [bsum, k]⟩
        · exact .inr (FreeAt.cons (FreeAt.cons j2))
      · rw [if_neg hc] at h ⊢
        dsimp only at h ⊢
        have hA : BestAt n (off + x.size) (y :: r) best2 := by
          intro o s e
          obtain ⟨k1, k2⟩ := key o s e
          rcases k2 with k2 | k2 | k2
          · exact ⟨k1, .inl (by omega)⟩
          · exact ⟨k1, .inl (by omega)⟩
          · exact ⟨k1, .inr ⟨k2.1, r, by rw [k2.2]⟩⟩
        obtain ⟨j1, j2⟩ := search_place (y :: r) _ _ hyr hA o s h
        refine ⟨j1, ?_⟩
        rcases j2 with ⟨j2, j3⟩ | j2
        · rcases (key o s j3).2 with k | ⟨k, k'⟩ | ⟨k, k'⟩
          · exact .inl k
          · exact .inr ⟨[], _, by rw [k']; rfl, by simp [bsum, k]⟩
          · omega
        · exact .inr (FreeAt.cons j2)

theorem take_at {n : Nat} : ∀ (pre : List Piece) (off s : Nat) (f : Bool) (post : List Piece), Big pre →
    Blocks.take n (off + bsum pre) off (pre ++ ⟨s, f⟩ :: post) = pre ++ ((halve n 64 s).1 ++ ⟨(halve n 64 s).2, false⟩ :: post)
  | [], off, s, f, post, _ => by
    show Blocks.take n (off + bsum []) off (⟨s, f⟩ :: post) = _
    rw [Blocks.take, if_pos (by simp [bsum])]
    rfl
  | x :: pre, off, s, f, post, hB => by
    obtain ⟨hx, hr⟩ := hB.cons
    have := hx.ge
    show Blocks.take n (off + bsum (x :: pre)) off (x :: (pre ++ ⟨s, f⟩ :: post)) = _
    rw [Blocks.take, bsum_cons, if_neg (by omega), ← Nat.add_assoc, take_at pre _ s f post hr]
    rfl

theorem release_at : ∀ (pre : List Piece) (off s : Nat) (f : Bool) (post : List Piece), Big pre →
    release (off + bsum pre) off (pre ++ ⟨s, f⟩ :: post) = pre ++ ⟨s, true⟩ :: post
  | [], off, s, f, post, _ => by
    show release (off + bsum []) off (⟨s, f⟩ :: post) = _
    rw [release, if_pos (by simp [bsum])]
    rfl
  | x :: pre, off, s, f, post, hB => by
    obtain ⟨hx, hr⟩ := hB.cons
    have := hx.ge
    show release (off + bsum (x :: pre)) off (x :: (pre ++ ⟨s, f⟩ :: post)) = _
    rw [release, bsum_cons, if_neg (by omega), ← Nat.add_assoc, release_at pre _ s f post hr]
    rfl

/-! ## Requests -/

/-- What looking for a block has done to the memory. -/
structure Looked (mem mem' : Int → UInt8) (h t : Int) (n : Nat) (q : List Piece × Option Nat) : Prop where
  out : ∀ z, z < h ∨ t ≤ z → mem' z = mem z
  big : Big q.1
  none : q.2 = none → Laid mem' t h q.1
  some : ∀ o, q.2 = some o → ∃ pre post s, q.1 = pre ++ ⟨s, false⟩ :: post ∧ bsum pre = o ∧ n ≤ s ∧ Laid mem' t h (pre ++ ⟨s, true⟩ :: post)

theorem looked_take {mem mem' mem2 : Int → UInt8} {h t : Int} {n : Nat} (h16 : 16 ≤ n) {pre post : List Piece} {s : Nat}
    (hB : Big (pre ++ ⟨s, true⟩ :: post)) (hn : n ≤ s) (hout : ∀ z, z < h ∨ t ≤ z → mem' z = mem z) (hout2 : ∀ z, z < h ∨ t ≤ z → mem2 z = mem' z)
    (hL : Laid mem2 t h (pre ++ ((halve n 64 s).1 ++ ⟨(halve n 64 s).2, true⟩ :: post))) :
    Looked mem mem2 h t n (Blocks.take n (bsum pre) 0 (pre ++ ⟨s, true⟩ :: post), some (bsum pre + (s - (halve n 64 s).2))) := by
  have hs : Pow2 s := hB ⟨s, true⟩ (by simp)
  have hpre : Big pre := fun y hy => hB y (by simp [hy])
  have hpost : Big post := fun y hy => hB y (by simp [hy])
  obtain ⟨f1, f2, f3, f4⟩ := halve_facts 64 s hs h16 hn
  have e := take_at (n := n) pre 0 s true post hpre
  rw [Nat.zero_add] at e
  refine ⟨fun z hz => (hout2 z hz).trans (hout z hz), ?_, by simp, ?_⟩
  · dsimp only
    rw [e]
    exact big_append hpre (big_append f2 (big_cons (x := ⟨_, false⟩) f1 hpost))
  · intro o ho
    simp only [Option.some.injEq] at ho
    refine ⟨pre ++ (halve n 64 s).1, post, (halve n 64 s).2, by dsimp only; rw [e, List.append_assoc], by rw [bsum_append]; omega, f4, ?_⟩
    rw [List.append_assoc]
    exact hL

theorem find_exact {n : Nat} {h t : Int} (h16 : 16 ≤ n) (hlt : t - h < 2 ^ 63) (hn63 : n < 2 ^ 63) (hht : h < t) {l : List Piece} {mem : Int → UInt8}
    (hL : Laid mem t h l) (hB : Big l) :
    ∃ mem', findBestBuddy h t n mem = .ok ((find n l).2.map (fun o : Nat => h + o), mem') ∧ Looked mem mem' h t n (find n l) := by
  match l, hL, hB with
  | [], hL, hB => have : h = t := hL; omega
  | [x], hL, hB =>
    obtain ⟨hx, _⟩ := hB.cons
    have hge := hx.ge
    have hL' := hL
    obtain ⟨h1, h2, h3, h4⟩ := hL'
    have h4 : h + (x.size : Int) = t := h4
    unfold findBestBuddy
    have hnx : nextBuddy mem h = t := by unfold nextBuddy; rw [h2, h4]
    by_cases hf : x.free = true
    · rw [if_pos ⟨hnx, by rw [h3]; exact hf⟩]
      obtain ⟨xs, xf⟩ := x
      dsimp only at hf hx hge h2 h3 h4
      subst hf
      by_cases hn : n ≤ xs
      · obtain ⟨mem', e1, e2, e3⟩ := splitBuddy_exact (pre := []) (post := []) h16 hL hB hlt hn
        obtain ⟨f1, f2, f3, f4⟩ := halve_facts 64 xs hx h16 hn
        have hk := looked_take (mem := mem) (pre := []) (post := []) h16 hB hn (fun _ _ => rfl) e3 e2
        have ef : find n [⟨xs, true⟩] = (Blocks.take n (bsum []) 0 [⟨xs, true⟩], some (bsum [] + (xs - (halve n 64 xs).2))) := by
          rw [find, if_pos ⟨rfl, hn⟩]
          simp [bsum]
        rw [ef]
        refine ⟨mem', ?_, hk⟩
        have e0 : h + ((bsum [] : Nat) : Int) = h := by simp [bsum]
        rw [e0] at e1
        rw [e1]
        simp only [Option.map_some]
        congr 3
        simp only [bsum, List.map_nil, List.sum_nil]
        have f3 : bsum (halve n 64 xs).1 + (halve n 64 xs).2 = xs := f3
        unfold bsum at f3
        push_cast
        omega
      · have ef : find n [⟨xs, true⟩] = ([⟨xs, true⟩], none) := by rw [find, if_neg (fun hc => hn hc.2)]
        rw [ef]
        refine ⟨mem, ?_, fun _ _ => rfl, hB, fun _ => hL, by rintro o ⟨⟩⟩
        unfold splitBuddy splitLoop
        have hmod : n * 2 % wordMod = n * 2 := Nat.mod_eq_of_lt (by unfold wordMod; omega)
        rw [hmod, h2, if_neg (by omega)]
        simp only [Out.bind_ok]
        rw [h2, if_neg hn]
        rfl
    · rw [if_neg (fun hc => hf (by rw [← h3]; exact hc.2))]
      have ef : find n [x] = ([x], none) := by rw [find, if_neg (fun hc => hf hc.1)]
      rw [ef]
      refine ⟨mem, ?_, fun _ _ => rfl, hB, fun _ => hL, by rintro o ⟨⟩⟩
      rw [hnx, findLoop, if_neg (by omega)]
      rfl
  | x :: y :: r, hL, hB =>
    have hL' := hL
    obtain ⟨h1, h2, h3, h4⟩ := hL'
    have h5 := h4.1
    have hnx : nextBuddy mem h = h + x.size := by unfold nextBuddy; rw [h2]
    unfold findBestBuddy
    rw [if_neg (by rw [hnx]; omega)]
    obtain ⟨mem', e1, e2, e3, e4⟩ := findLoop_exact (size := n) hlt ((t - h).toNat + 1) (x :: y :: r) 0 h (nextBuddy mem h) none mem (by simp) hL hB
      (by rintro a s ⟨⟩; exact hnx) (by rintro o s ⟨⟩) (laid_few hL hB)
    have hsp := search_place (n := n) (x :: y :: r) 0 none hB (by rintro o s ⟨⟩)
    have ef : find n (x :: y :: r) = (match search n 0 (x :: y :: r) none with
      | (l', some (o, s)) => (Blocks.take n o 0 l', some (o + (s - (halve n 64 s).2)))
      | (l', none) => (l', none)) := rfl
    rw [ef]
    have e1' : findLoop n t ((t - h).toNat + 1) h (nextBuddy mem h) none mem = .ok (placed h (search n 0 (x :: y :: r) none).2, mem') := e1
    rw [e1']
    simp only [Out.bind_ok]
    revert e2 e3 hsp
    rcases search n 0 (x :: y :: r) none with ⟨l', _ | ⟨o, s⟩⟩
    · intro e2 e3 hsp
      exact ⟨mem', rfl, e4, e3, fun _ => e2, by rintro o ⟨⟩⟩
    · intro e2 e3 hsp
      obtain ⟨k1, k2⟩ := hsp o s rfl
      rcases k2 with ⟨k2, _⟩ | ⟨pre, post, k2, k3⟩
      · omega
      · dsimp only at k2 e2 e3
        subst k2
        rw [Nat.zero_add] at k3
        subst k3
        obtain ⟨mem2, f1, f2, f3⟩ := splitBuddy_exact h16 e2 e3 hlt k1
        obtain ⟨g1, g2, g3, g4⟩ := halve_facts 64 s (e3 ⟨s, true⟩ (by simp)) h16 k1
        refine ⟨mem2, ?_, looked_take h16 e3 k1 e4 f3 f2⟩
        simp only [placed, Option.map_some]
        rw [f1]
        congr 3
        push_cast
        omega

/-- A request on an allocator whose blocks are `l`. -/
theorem buddyAlloc_exact {data : Int} {total : Nat} {b : Buddy} (hA : BuddyArgs total) (hh : b.head = data) (ht : b.tail = data + total)
    {l : List Piece} (hL : Laid b.mem (data + total) data l) (hB : Big l) (size count : Nat) (zero nof : Bool) (hsz : size * count < 2 ^ 62) :
    ∃ mem', Laid mem' (data + total) data (request (size * count) l).1 ∧ Big (request (size * count) l).1 ∧
      buddyAlloc size count zero nof b = (match (request (size * count) l).2 with
        | some o => .ok (some (data + o), { b with mem := mem' })
        | none => if nof then .ok (none, { b with mem := mem' }) else .longjmp) := by
  obtain ⟨hp, hlt⟩ := hA.pow2
  have hge := hp.ge
  have hm1 : size * count % wordMod = size * count := Nat.mod_eq_of_lt (by unfold wordMod; omega)
  have hm2 : (size * count + 16) % wordMod = size * count + 16 := Nat.mod_eq_of_lt (by unfold wordMod; omega)
  unfold buddyAlloc
  dsimp only
  rw [hm1, hm2, hh, ht]
  -- the end of a successful request
  have done : ∀ (m0 m : Int → UInt8) (l' : List Piece) (o : Nat), Looked m0 m data (data + total) (size * count + 16) (l', some o) →
      Laid (if zero = true then memZero (data + o + 16) (size * count : Nat) (setFree (data + o) false m) else setFree (data + o) false m) (data + total) data l' := by
    intro m0 m l' o hk
    obtain ⟨pre, post, s, q1, q2, q3, q4⟩ := hk.some o rfl
    dsimp only at q1
    subst q1 q2
    have hB' : Big (pre ++ ⟨s, true⟩ :: post) := by
      intro z hz
      rcases List.mem_append.1 hz with hz | hz
      · exact hk.big z (by simp [hz])
      · rcases List.mem_cons.1 hz with rfl | hz
        · exact hk.big ⟨s, false⟩ (by simp)
        · exact hk.big z (by simp [hz])
    have hF := laid_flag (f' := false) q4 hB'
    cases zero with
    | false => exact hF
    | true =>
      rw [if_pos rfl]
      refine laid_body hF hk.big fun z hz => ?_
      dsimp only at hz
      unfold memZero
      rw [if_neg (by push_cast; omega)]
  obtain ⟨m1, e1, k1⟩ := find_exact (n := size * count + 16) (by omega) (t := data + total) (h := data) (by omega) (by omega) (by omega) hL hB
  rw [e1]
  simp only [Out.bind_ok]
  unfold request
  revert k1
  rcases find (size * count + 16) l with ⟨l', _ | o⟩
  · intro k1
    obtain ⟨m2, e2, hL2, hB2, o2⟩ := coalesce_joined (by omega) (k1.none rfl) k1.big
    obtain ⟨m3, e3, k3⟩ := find_exact (n := size * count + 16) (by omega) (t := data + total) (h := data) (by omega) (by omega) (by omega) hL2 hB2
    dsimp only [Option.map_none]
    rw [e2]
    simp only [Out.bind_ok]
    rw [e3]
    simp only [Out.bind_ok]
    dsimp only at k3
    revert k3
    rcases find (size * count + 16) (joined l') with ⟨l'', _ | o⟩
    · intro k3
      exact ⟨m3, k3.none rfl, k3.big, rfl⟩
    · intro k3
      refine ⟨_, done _ _ _ _ k3, k3.big, ?_⟩
      simp only [Option.map_some]
      rw [show data + ((o + 16 : Nat) : Int) = data + o + 16 by push_cast; omega]
  · intro k1
    refine ⟨_, done _ _ _ _ k1, k1.big, ?_⟩
    simp only [Option.map_some, Out.bind_ok]
    rw [show data + ((o + 16 : Nat) : Int) = data + o + 16 by push_cast; omega]

/-- Giving back a block of an allocator whose blocks are `l`. -/
theorem freeBuddy_exact {data : Int} {total : Nat} {b : Buddy} {live : List Owned} (hA : BuddyArgs total) (hI : BuddyInv data total b live)
    {l : List Piece} (hL : Laid b.mem (data + total) data l) (hB : Big l) {o : Owned} (ho : o ∈ live) :
    ∃ mem', Laid mem' (data + total) data (giveBack (o.ptr - data).toNat l) ∧ Big (giveBack (o.ptr - data).toNat l) ∧
      freeBuddy o.ptr b = .ok { b with mem := mem' } := by
  obtain ⟨hh, ht, hnd, bs, hT, hl⟩ := hI
  obtain ⟨hp, hlt⟩ := hA.pow2
  obtain ⟨k, hk, hkf, hka, hkn⟩ := hl o ho
  obtain ⟨pre, post, rfl⟩ := List.append_of_mem hk
  have hpl := tiled_place hT
  have hLb := (laid_of_tiled hT).1
  rw [List.map_append, List.map_cons] at hLb
  have e := laid_unique hL hLb
  subst e
  have hpre : Big (pre.map fun b => (⟨b.size, b.free⟩ : Piece)) := fun y hy => hB y (List.mem_append_left _ hy)
  have hF := laid_flag (f' := true) hL hB
  have hBF : Big (pre.map (fun b => (⟨b.size, b.free⟩ : Piece)) ++ ⟨k.size, true⟩ :: post.map fun b => (⟨b.size, b.free⟩ : Piece)) := by
    intro z hz
    rcases List.mem_append.1 hz with hz | hz
    · exact hpre z hz
    · rcases List.mem_cons.1 hz with rfl | hz
      · exact hB ⟨k.size, k.free⟩ (by simp)
      · exact hB z (List.mem_append_right _ (List.mem_cons_of_mem _ hz))
  obtain ⟨mem', e1, e2, e3, e4⟩ := coalesce_joined (by omega) hF hBF
  have hg : giveBack (o.ptr - data).toNat (pre.map (fun b => (⟨b.size, b.free⟩ : Piece)) ++ ⟨k.size, k.free⟩ :: post.map fun b => (⟨b.size, b.free⟩ : Piece)) =
      joined (pre.map (fun b => (⟨b.size, b.free⟩ : Piece)) ++ ⟨k.size, true⟩ :: post.map fun b => (⟨b.size, b.free⟩ : Piece)) := by
    unfold giveBack
    congr 1
    have := release_at (pre.map fun b => (⟨b.size, b.free⟩ : Piece)) 0 k.size k.free (post.map fun b => (⟨b.size, b.free⟩ : Piece)) hpre
    rw [Nat.zero_add] at this
    rw [← this]
    congr 1
    omega
  rw [hg]
  refine ⟨mem', e2, e3, ?_⟩
  unfold freeBuddy
  dsimp only
  rw [hh, ht, show o.ptr - 16 = data + ((bsum (pre.map fun b => (⟨b.size, b.free⟩ : Piece)) : Nat) : Int) by omega, e1]
  rfl

/-- Writing into a block that is owned. -/
theorem write_laid {data : Int} {total : Nat} {b : Buddy} {live : List Owned} (hI : BuddyInv data total b live)
    {l : List Piece} (hL : Laid b.mem (data + total) data l) (hB : Big l) {o : Owned} (ho : o ∈ live) {q : Int} {bs : List UInt8}
    (h1 : o.ptr ≤ q) (h2 : q + bs.length ≤ o.ptr + o.bytes) : Laid (memWrite q bs b.mem) (data + total) data l := by
  obtain ⟨hh, ht, hnd, ks, hT, hl⟩ := hI
  obtain ⟨k, hk, hkf, hka, hkn⟩ := hl o ho
  obtain ⟨pre, post, rfl⟩ := List.append_of_mem hk
  have hpl := tiled_place hT
  have hLb := (laid_of_tiled hT).1
  rw [List.map_append, List.map_cons] at hLb
  have e := laid_unique hL hLb
  subst e
  refine laid_body hL hB fun z hz => ?_
  dsimp only at hz
  unfold memWrite
  rw [if_neg (by omega)]

theorem Spec.Blocks.Trace.hist {data : Int} {total : Nat} {rs : List Req} {as : List (Option Int)} {b : Buddy} {live : List Owned}
    (h : Trace data total rs as b live) : BHist data total b live := by
  induction h with
  | create => exact .create
  | alloc _ h1 h2 ih => exact .alloc ih h1 h2
  | allocFailed _ h1 h2 ih => exact .allocFailed ih h1 h2
  | free _ h1 h2 ih => exact .free ih h1 h2
  | write _ h1 h2 h3 ih => exact .write ih h1 h2 h3

theorem Spec.Blocks.Trace.blocks {data : Int} {total : Nat} {rs : List Req} {as : List (Option Int)} {b : Buddy} {live : List Owned}
    (hA : BuddyArgs total) (h : Trace data total rs as b live) :
    as = (replay total rs).2.map (fun a => a.map fun o : Nat => data + o) ∧ Laid b.mem (data + total) data (replay total rs).1 ∧
      Big (replay total rs).1 := by
  induction h with
  | @create mem =>
    obtain ⟨hp, hlt⟩ := hA.pow2
    have hge := hp.ge
    refine ⟨rfl, ⟨by omega, ?_, setFree_read, rfl⟩, big_cons (x := ⟨total, true⟩) hp (by intro x hx; cases hx)⟩
    show bSize (setFree data true (setSize data total mem)) data = _
    rw [setFree_size, setSize_read (by omega)]
  | @alloc rs as b b' live size count zero nof p hT h1 h2 ih =>
    obtain ⟨i1, i2, i3⟩ := ih
    obtain ⟨hh, ht, _⟩ := hT.hist.inv hA
    obtain ⟨mem', e1, e2, e3⟩ := buddyAlloc_exact hA hh ht i2 i3 size count zero nof h1
    rw [h2] at e3
    refine ⟨?_, ?_, e2⟩
    · simp only [replay, List.map_cons]
      rw [← i1]
      congr 1
      revert e3
      cases (request (size * count) (replay total rs).1).2 with
      | none => intro e3; cases nof <;> simp at e3
      | some o => intro e3; simp only [Out.ok.injEq, Prod.mk.injEq] at e3; rw [e3.1]; rfl
    · have : b' = { b with mem := mem' } := by
        revert e3
        cases (request (size * count) (replay total rs).1).2 with
        | none => intro e3; cases nof <;> simp at e3
        | some o => intro e3; simp only [Out.ok.injEq, Prod.mk.injEq] at e3; exact e3.2
      rw [this]
      exact e1
  | @allocFailed rs as b b' live size count zero nof hT h1 h2 ih =>
    obtain ⟨i1, i2, i3⟩ := ih
    obtain ⟨hh, ht, _⟩ := hT.hist.inv hA
    obtain ⟨mem', e1, e2, e3⟩ := buddyAlloc_exact hA hh ht i2 i3 size count zero nof h1
    rw [h2] at e3
    refine ⟨?_, ?_, e2⟩
    · simp only [replay, List.map_cons]
      rw [← i1]
      congr 1
      revert e3
      cases (request (size * count) (replay total rs).1).2 with
      | none => intro e3; rfl
      | some o => intro e3; simp at e3
    · have : b' = { b with mem := mem' } := by
        revert e3
        cases (request (size * count) (replay total rs).1).2 with
        | none => intro e3; cases nof <;> simp at e3; exact e3
        | some o => intro e3; simp at e3
      rw [this]
      exact e1
  | @free rs as b b' live o hT h1 h2 ih =>
    obtain ⟨i1, i2, i3⟩ := ih
    obtain ⟨mem', e1, e2, e3⟩ := freeBuddy_exact hA (hT.hist.inv hA) i2 i3 h1
    rw [h2] at e3
    cases e3
    exact ⟨i1, e1, e2⟩
  | write hT h1 h2 h3 ih =>
    obtain ⟨i1, i2, i3⟩ := ih
    exact ⟨i1, write_laid (hT.hist.inv hA) i2 i3 h1 h2 h3, i3⟩

theorem Spec.BHist.trace {data : Int} {total : Nat} {b : Buddy} {live : List Owned} (h : BHist data total b live) :
    ∃ rs as, Trace data total rs as b live := by
  induction h with
  | create => exact ⟨_, _, .create⟩
  | alloc _ h1 h2 ih => obtain ⟨_, _, ih⟩ := ih; exact ⟨_, _, .alloc ih h1 h2⟩
  | allocFailed _ h1 h2 ih => obtain ⟨_, _, ih⟩ := ih; exact ⟨_, _, .allocFailed ih h1 h2⟩
  | free _ h1 h2 ih => obtain ⟨_, _, ih⟩ := ih; exact ⟨_, _, .free ih h1 h2⟩
  | write _ h1 h2 h3 ih => obtain ⟨_, _, ih⟩ := ih; exact ⟨_, _, .write ih h1 h2 h3⟩

end Flo
