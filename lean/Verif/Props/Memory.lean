import Verif.Proofs.Memory
import Verif.Proofs.Sat
/-!
# Arena (C45), dynamic arrays (C46), byte buffers (C47), independence of copies (C42)
-/
namespace Flo
open Spec

/-! ## C45 -/

theorem runAllocs_spec : ∀ (rs : List Req) (a a' : Arena) (ps : List (Option Int)), (∀ r ∈ rs, r.Valid) →
    runAllocs rs a = .ok (ps, a') →
    ps.length = rs.length ∧ a.beg ≤ a'.beg ∧ a'.stop = a.stop ∧
    (∀ x, x < a.beg → a'.mem x = a.mem x) ∧
    (∀ (i : Nat) r p, rs[i]? = some r → ps[i]? = some (some p) →
      p % r.align = 0 ∧ a.beg ≤ p ∧ p + r.bytes ≤ a'.beg ∧ (0 < r.count → p + r.bytes ≤ a.stop) ∧
      (∀ x, p ≤ x → x < p + r.bytes → a'.mem x = if r.zero then 0 else a.mem x)) ∧
    (∀ (i j : Nat) r p r' p', i < j → rs[i]? = some r → ps[i]? = some (some p) → rs[j]? = some r' →
      ps[j]? = some (some p') → p + r.bytes ≤ p') := by
  intro rs
  induction rs with
  | nil =>
    intro a a' ps _ h
    cases h
    refine ⟨rfl, le_refl _, rfl, fun _ _ => rfl, ?_, ?_⟩ <;> simp
  | cons r rs ih =>
    intro a a' ps hv h
    obtain ⟨hs, hal, hc⟩ := hv r (by simp)
    have hv' : ∀ r ∈ rs, r.Valid := fun r hr => hv r (by simp [hr])
    have hm : 0 ≤ r.size * r.count := mul_nonneg hs.le hc
    unfold runAllocs at h
    rcases arenaAlloc_cases (zero := r.zero) (nof := r.nullOnFail) (a := a) hs hal hc with ⟨p, a1, he, hA⟩ | ⟨_, he⟩
    · rw [he] at h
      simp only [Out.bind_ok] at h
      cases hq : runAllocs rs a1 with
      | ok v =>
        obtain ⟨qs, a2⟩ := v
        rw [hq] at h
        simp only [Out.bind_ok] at h
        cases h
        obtain ⟨hl, hb, hst, hlow, hin, hdis⟩ := ih a1 _ qs hv' hq
        have hbeg := hA.beg
        have hab := hA.above
        refine ⟨by simp [hl], by omega, hst.trans hA.stop, fun x hx => ?_, ?_, ?_⟩
        · rw [hlow x (by omega), hA.below x (by omega)]
        · intro i r' p' hr hp
          cases i with
          | zero =>
            simp at hr hp
            subst hr; subst hp
            refine ⟨hA.aligned, hab, by unfold Req.bytes; omega, fun h => by unfold Req.bytes; exact hA.fits h, ?_⟩
            intro x h1 h2
            unfold Req.bytes at h2
            rw [hlow x (by omega)]
            cases hz : r.zero with
            | true => simp; exact hA.zeroed hz x h1 h2
            | false => simp; rw [hA.keeps hz]
          | succ i =>
            simp at hr hp
            obtain ⟨h1, h2, h3, h4, h5⟩ := hin i r' p' hr hp
            refine ⟨h1, by omega, h3, fun h => by rw [← hA.stop]; exact h4 h, fun x hx hx' => ?_⟩
            rw [h5 x hx hx', hA.outside x (by omega)]
        · intro i j r1 p1 r2 p2 hij h1 h2 h3 h4
          cases j with
          | zero => omega
          | succ j =>
            simp at h3 h4
            cases i with
            | zero =>
              simp at h1 h2
              subst h1; subst h2
              have := (hin j r2 p2 h3 h4).2.1
              unfold Req.bytes; omega
            | succ i =>
              simp at h1 h2
              exact hdis i j r1 p1 r2 p2 (by omega) h1 h2 h3 h4
      | longjmp => rw [hq] at h; cases h
      | ub w => rw [hq] at h; cases h
      | hang => rw [hq] at h; cases h
    · rw [he] at h
      cases hn : r.nullOnFail with
      | false => rw [hn] at h; simp at h
      | true =>
        rw [hn] at h
        simp only [if_true, Out.bind_ok] at h
        cases hq : runAllocs rs a with
        | ok v =>
          obtain ⟨qs, a2⟩ := v
          rw [hq] at h
          simp only [Out.bind_ok] at h
          cases h
          obtain ⟨hl, hb, hst, hlow, hin, hdis⟩ := ih a _ qs hv' hq
          refine ⟨by simp [hl], hb, hst, hlow, ?_, ?_⟩
          · intro i r' p' hr hp
            cases i with
            | zero => simp at hp
            | succ i => simp at hr hp; exact hin i r' p' hr hp
          · intro i j r1 p1 r2 p2 hij h1 h2 h3 h4
            cases j with
            | zero => omega
            | succ j =>
              cases i with
              | zero => simp at h2
              | succ i => simp at h1 h2 h3 h4; exact hdis i j r1 p1 r2 p2 (by omega) h1 h2 h3 h4
        | longjmp => rw [hq] at h; cases h
        | ub w => rw [hq] at h; cases h
        | hang => rw [hq] at h; cases h

/-- C45: whatever is requested, every block returned is aligned as requested, starts inside the arena, has all its bytes
inside the arena, is zeroed if that was asked for (and untouched otherwise), and two blocks never overlap. -/
theorem C45_blocks (a a' : Arena) (rs : List Req) (ps : List (Option Int)) (hv : ∀ r ∈ rs, r.Valid)
    (h : runAllocs rs a = .ok (ps, a')) :
    ps.length = rs.length ∧
    (∀ (i : Nat) r p, rs[i]? = some r → ps[i]? = some (some p) →
      p % r.align = 0 ∧ a.beg ≤ p ∧
      (∀ x, p ≤ x → x < p + r.bytes → a.beg ≤ x ∧ x < a.stop ∧ a'.mem x = if r.zero then 0 else a.mem x)) ∧
    (∀ (i j : Nat) r p r' p', i ≠ j → rs[i]? = some r → ps[i]? = some (some p) → rs[j]? = some r' →
      ps[j]? = some (some p') → ∀ x, ¬((p ≤ x ∧ x < p + r.bytes) ∧ (p' ≤ x ∧ x < p' + r'.bytes))) := by
  obtain ⟨h1, h2, h3, h4, h5, h6⟩ := runAllocs_spec rs a a' ps hv h
  refine ⟨h1, ?_, ?_⟩
  · intro i r p hr hp
    obtain ⟨g1, g2, g3, g4, g5⟩ := h5 i r p hr hp
    refine ⟨g1, g2, fun x hx hx' => ⟨by omega, ?_, g5 x hx hx'⟩⟩
    have hval := hv r (List.mem_of_getElem? hr)
    have : 0 < r.count := by
      rcases lt_or_eq_of_le hval.2.2 with h | h
      · exact h
      · unfold Req.bytes at hx'; rw [← h] at hx'; omega
    have := g4 this
    omega
  · intro i j r p r' p' hij hr hp hr' hp' x hx
    rcases lt_or_gt_of_ne hij with hlt | hlt
    · have := h6 i j r p r' p' hlt hr hp hr' hp'; omega
    · have := h6 j i r' p' r p hlt hr' hp' hr hp; omega

/-- C45: a request for at least one byte succeeds exactly when there is room; otherwise the failure handler is taken
or, if the caller asked for that, NULL is returned and nothing changes. -/
theorem C45_failure (a : Arena) (r : Req) (hv : r.Valid) (hc : 0 < r.count) :
    (Fits a r → ∃ p a', arenaAlloc r.size r.align r.count r.zero r.nullOnFail a = .ok (some p, a')) ∧
    (¬ Fits a r → arenaAlloc r.size r.align r.count r.zero r.nullOnFail a =
      if r.nullOnFail then .ok (none, a) else .longjmp) := by
  obtain ⟨hs, hal, hc0⟩ := hv
  rcases arenaAlloc_cases (zero := r.zero) (nof := r.nullOnFail) (a := a) hs hal hc0 with ⟨p, a1, he, hA⟩ | ⟨hlt, he⟩
  · refine ⟨fun _ => ⟨p, a1, he⟩, fun hn => absurd ⟨p, hA.above, hA.aligned, ?_⟩ hn⟩
    exact hA.fits hc
  · refine ⟨fun ⟨q, h1, h2, h3⟩ => ?_, fun _ => he⟩
    exfalso
    have hpos := hal.pos
    have hq : q = a.beg + (q - a.beg) := by ring
    have hmod : (q - a.beg) % r.align = (-a.beg) % r.align := by
      rw [sub_eq_add_neg, Int.add_emod, h2, zero_add, Int.emod_emod_of_dvd _ (dvd_refl _)]
    have hle : (q - a.beg) % r.align ≤ q - a.beg := by
      have h4 := Int.emod_add_mul_ediv (q - a.beg) r.align
      have h5 : 0 ≤ (q - a.beg) / r.align := Int.ediv_nonneg (by omega) hpos.le
      have h6 := mul_nonneg hpos.le h5
      omega
    unfold Req.bytes at h3
    omega

/-- The theorems above apply: three blocks of different sizes, one zeroed, and a fourth that does not fit. -/
theorem C45_example :
    ∃ a ps a', ArenaOK a ∧
      runAllocs [⟨3, 1, 1, false, false⟩, ⟨8, 8, 2, true, false⟩, ⟨4, 4, 1, false, true⟩, ⟨4, 4, 100, false, true⟩] a = .ok (ps, a') ∧
      ps = [some 65, some 72, some 88, none] := by
  obtain ⟨⟨ps, a'⟩, h1, h2⟩ := okAnd_ex (x := runAllocs [⟨3, 1, 1, false, false⟩, ⟨8, 8, 2, true, false⟩, ⟨4, 4, 1, false, true⟩,
    ⟨4, 4, 100, false, true⟩] ⟨65, 128, fun _ => 7⟩) (p := fun v => decide (v.1 = [some 65, some 72, some 88, none]))
    (by decide +kernel)
  exact ⟨_, ps, a', ⟨by decide, by decide, by decide⟩, h1, by simpa using h2⟩

/-- An empty block may point outside the arena, past its end (no byte of it exists, so `C45_blocks` says nothing about
it): the comparison rounds towards zero. -/
theorem C45_empty_block_outside :
    ∃ (a : Arena) (p : Int) (a' : Arena), ArenaOK a ∧ arenaAlloc 8 8 0 false false a = .ok (some p, a') ∧ a.stop < p ∧
      a'.stop < a'.beg :=
  ⟨⟨65, 66, fun _ => 0⟩, 72, _, by unfold ArenaOK; decide, rfl, by decide, by decide⟩

/-- `flo_copyToArena`: unless less memory is free than the copy and its alignment need, the copy lies in new memory inside
the arena, holds the same bytes as the original, and the original is unchanged. -/
theorem C45_copyToArena (a : Arena) (data size align count : Int) (hs : 0 < size) (hal : IsAlign align) (hc : 0 ≤ count) :
    (copyToArena data size align count a = .longjmp ∧ a.stop - a.beg < size * count + align) ∨
    ∃ p a', copyToArena data size align count a = .ok (p, a') ∧ p % align = 0 ∧ a.beg ≤ p ∧
      (∀ x, x < a.beg → a'.mem x = a.mem x) ∧
      (∀ t, 0 ≤ t → t < size * count → p + t < a.stop ∧ a'.mem (p + t) = a.mem (data + t)) := by
  unfold copyToArena
  rcases alloc_post (zero := false) (a := a) hs hal hc with h | ⟨p, a', he, hA⟩
  · left; exact ⟨by rw [h]; rfl, (alloc_noJump hs hal hc h).2⟩
  · right
    rw [he]
    refine ⟨_, _, rfl, hA.aligned, hA.above, fun x hx => ?_, fun t h0 ht => ⟨?_, ?_⟩⟩
    · show memCopy p data (size * count) a'.mem x = _
      have := hA.above
      unfold memCopy; rw [if_neg (by omega)]
      exact hA.below x (by omega)
    · have : 0 < count := by
        rcases lt_or_eq_of_le hc with h | h
        · exact h
        · rw [← h] at ht; omega
      have := hA.fits this
      omega
    · show memCopy p data (size * count) a'.mem (p + t) = _
      unfold memCopy; rw [if_pos (by omega), hA.keeps rfl]
      congr 1; omega

/-! ## C46 -/

/-- C46: after any history of pushes, stores, copies, appends and other allocations, interleaved in any way, every array
holds exactly the elements a program working with plain lists would have. -/
theorem C46_contents (a : Arena) (h : Heap) (vs : List (List Elem)) (hH : Hist a h vs) (i : Nat) (k : Kind) (s : Arr)
    (hi : h.arrs[i]? = some (k, s)) :
    vs[i]? = some (readArr h.arena.mem k s) ∧ 0 ≤ s.len ∧ s.len = (readArr h.arena.mem k s).length := by
  have hI := hH.inv
  have hok := hI.arr i k s hi
  refine ⟨hI.val i k s hi, hok.len0, ?_⟩
  cases hb : s.buf with
  | none =>
    have := hok.none hb; have := hok.lenCap; have := hok.len0
    unfold readArr; rw [hb]; simp; omega
  | some b => rw [length_readArr hb]; have := hok.len0; omega

/-- C46: the elements of an array (its whole capacity, in fact) lie inside the arena, are aligned, and are not shared with any
other array. -/
theorem C46_placement (a : Arena) (h : Heap) (vs : List (List Elem)) (hH : Hist a h vs) (i : Nat) (k : Kind) (s : Arr)
    (b : Int) (hi : h.arrs[i]? = some (k, s)) (hb : s.buf = some b) :
    s.len ≤ s.cap ∧ b % k.align = 0 ∧ a.beg ≤ b ∧ b + k.size * s.cap ≤ a.stop ∧
    ∀ (j : Nat) k' s' b', j ≠ i → h.arrs[j]? = some (k', s') → s'.buf = some b' →
      b + k.size * s.cap ≤ b' ∨ b' + k'.size * s'.cap ≤ b := by
  have hI := hH.inv
  have hok := hI.arr i k s hi
  exact ⟨hok.lenCap, hok.aligned b hb, hok.lo b hb, hI.stop ▸ hok.stop b hb,
    fun j k' s' b' hne hj hb' => hI.apart i j k s k' s' (Ne.symm hne) hi hj b b' hb hb'⟩

/-- C46: a push takes the failure handler (if less than twice the room of the present elements is free) or returns the address of a slot behind the existing elements; the slot
is aligned, lies inside the array's capacity and inside the arena, overlaps no other array, and the elements there
before are still the same. -/
theorem C46_push (a : Arena) (h : Heap) (vs : List (List Elem)) (hH : Hist a h vs) (i : Nat) (k : Kind) (s : Arr)
    (zero : Bool) (hi : h.arrs[i]? = some (k, s)) :
    (arrPush k.size k.align zero s h.arena = .longjmp ∧
      h.arena.stop - h.arena.beg < 2 * k.size * max 1 s.len + k.align) ∨
    ∃ p b s' a', arrPush k.size k.align zero s h.arena = .ok (p, s', a') ∧ s'.buf = some b ∧ s'.len = s.len + 1 ∧
      p = b + k.size * s.len ∧ p % k.align = 0 ∧ a.beg ≤ b ∧ p + k.size ≤ b + k.size * s'.cap ∧
      b + k.size * s'.cap ≤ a.stop ∧
      readArr a'.mem k { s' with len := s.len } = readArr h.arena.mem k s ∧
      ∀ (j : Nat) k' t b', j ≠ i → h.arrs[j]? = some (k', t) → t.buf = some b' →
        p + k.size ≤ b' ∨ b' + k'.size * t.cap ≤ p := by
  have hI := hH.inv
  have hok := hI.arr i k s hi
  rcases arrPush_spec (zero := zero) hok hI.beg with h1 | ⟨b, s', a', he, hb, hl, hc, hr⟩
  · exact Or.inl ⟨h1, arrPush_jump hok h1⟩
  · right
    have hz := hok.kind.1
    have hl0 := hok.len0
    have hm := mul_slot (t := s.len) (c := s'.cap) hz (by omega)
    have hm0 : 0 ≤ k.size * s.len := mul_nonneg hz.le hl0
    refine ⟨_, b, s', a', he, hb, hl, rfl, ?_, hr.upd.ok.lo b hb, by omega, ?_, hr.read, ?_⟩
    · have h1 := hr.upd.ok.aligned b hb
      have h2 : (k.size * s.len) % k.align = 0 :=
        Int.emod_eq_zero_of_dvd (Dvd.dvd.mul_right hok.kind.2.2 _)
      rw [Int.add_emod, h1, h2]; simp
    · have h1 := hr.upd.ok.stop b hb
      have h2 := hI.stop
      have h3 := hr.upd.stop
      dsimp only at h1
      omega
    · intro j k' t b' hne hj hb'
      have := hr.upd.apart (hI.arr j k' t hj) (hI.apart _ _ _ _ _ _ (Ne.symm hne) hi hj) b b' hb hb'
      dsimp only at this
      omega

/-- C46: no step of a valid history runs into undefined behaviour: it succeeds, or fewer bytes are free than the step may
need (twice the room of the elements of the array it makes grow) and the failure handler is taken. -/
theorem C46_progress (a : Arena) (h : Heap) (vs : List (List Elem)) (hH : Hist a h vs) (op : HOp) (hv : op.Valid h vs) :
    (runH op h = .longjmp ∧ h.arena.stop - h.arena.beg < op.need h vs) ∨ ∃ h', runH op h = .ok h' ∧ Hist a h' (absH op vs) := by
  rcases hH.inv.step hv with h1 | ⟨h', h1, _⟩
  · exact Or.inl ⟨h1, hH.inv.jump hv h1⟩
  · exact Or.inr ⟨h', h1, hH.step hv h1⟩

/-! ## C47 -/

theorem flatten_bytes (d : List UInt8) : (d.map (fun c => [c])).flatten = d := by
  induction d with
  | nil => rfl
  | cons c cs ih => simp only [List.map_cons, List.flatten_cons, ih]; rfl

/-- C47: a byte buffer that a history only appends to holds the concatenation of the appended strings; here for one more
append, the contents before it being given by `C46_contents`. -/
theorem C47_append (a : Arena) (h h' : Heap) (vs : List (List Elem)) (hH : Hist a h vs) (i : Nat) (s : Arr)
    (data : List UInt8) (hi : h.arrs[i]? = some (⟨1, 1⟩, s)) (hr : runH (.append i data) h = .ok h') :
    ∃ s', h'.arrs[i]? = some (⟨1, 1⟩, s') ∧
      (readArr h'.arena.mem ⟨1, 1⟩ s').flatten = (readArr h.arena.mem ⟨1, 1⟩ s).flatten ++ data ∧
      s'.len = s.len + data.length := by
  have hv : (HOp.append i data).Valid h vs := ⟨s, hi⟩
  have hH' := hH.step hv hr
  have hI := hH.inv
  have hI' := hH'.inv
  have hlt : i < h.arrs.length := (List.getElem?_eq_some_iff.1 hi).1
  have harr : ∃ s', h'.arrs[i]? = some (⟨1, 1⟩, s') := by
    simp only [runH, hi] at hr
    cases hq : rawAdd data s h.arena with
    | ok v => rw [hq] at hr; simp only [Out.bind_ok] at hr; cases hr; exact ⟨v.1, by simp [hlt]⟩
    | longjmp => rw [hq] at hr; cases hr
    | ub w => rw [hq] at hr; cases hr
    | hang => rw [hq] at hr; cases hr
  obtain ⟨s', hs'⟩ := harr
  have h1 := C46_contents a h vs hH i _ s hi
  have h2 := C46_contents a h' _ hH' i _ s' hs'
  have hv2 := h2.1
  simp only [absH, List.getElem?_modify, h1.1, if_true, Option.map_some] at hv2
  have hv2 := Option.some.inj hv2
  refine ⟨s', hs', ?_, ?_⟩
  · rw [← hv2, List.flatten_append]
    rw [flatten_bytes]
  · rw [h2.2.2, h1.2.2, ← hv2]; simp

/-- Appending a list of strings, one after the other. -/
def appendAll (i : Nat) : List (List UInt8) → List HOp := List.map (HOp.append i)

theorem runHs_append_hist (a : Arena) (i : Nat) : ∀ (ds : List (List UInt8)) (h h' : Heap) (vs : List (List Elem)) (s : Arr),
    Hist a h vs → h.arrs[i]? = some (⟨1, 1⟩, s) → runHs (appendAll i ds) h = .ok h' →
    ∃ vs' s', Hist a h' vs' ∧ h'.arrs[i]? = some (⟨1, 1⟩, s') ∧
      (readArr h'.arena.mem ⟨1, 1⟩ s').flatten = (readArr h.arena.mem ⟨1, 1⟩ s).flatten ++ ds.flatten := by
  intro ds
  induction ds with
  | nil => intro h h' vs s hH hi hr; cases hr; exact ⟨vs, s, hH, hi, by simp⟩
  | cons d ds ih =>
    intro h h' vs s hH hi hr
    unfold appendAll at hr
    rw [List.map_cons] at hr
    unfold runHs at hr
    cases hq : runH (.append i d) h with
    | ok h1 =>
      rw [hq] at hr
      simp only [Out.bind_ok] at hr
      obtain ⟨s1, hs1, hc, _⟩ := C47_append a h h1 vs hH i s d hi hq
      obtain ⟨vs', s', g1, g2, g3⟩ := ih h1 h' _ s1 (hH.step (op := .append i d) ⟨s, hi⟩ hq) hs1 hr
      exact ⟨vs', s', g1, g2, by rw [g3, hc]; simp⟩
    | longjmp => rw [hq] at hr; cases hr
    | ub w => rw [hq] at hr; cases hr
    | hang => rw [hq] at hr; cases hr

/-- C47: a fresh byte buffer holds, after the strings `ds` were appended one after the other, exactly their concatenation. -/
theorem C47_concatenation (a : Arena) (h h' : Heap) (vs : List (List Elem)) (ds : List (List UInt8)) (hH : Hist a h vs)
    (hr : runHs (HOp.new ⟨1, 1⟩ :: appendAll h.arrs.length ds) h = .ok h') :
    ∃ s, h'.arrs[h.arrs.length]? = some (⟨1, 1⟩, s) ∧
      (readArr h'.arena.mem ⟨1, 1⟩ s).flatten = ds.flatten := by
  unfold runHs at hr
  simp only [runH, Out.bind_ok] at hr
  have hk : Kind.OK ⟨1, 1⟩ := ⟨by decide, isAlign_one, by decide⟩
  have h1 := hH.step (op := .new ⟨1, 1⟩) hk rfl
  obtain ⟨_, s, _, g2, g3⟩ := runHs_append_hist a h.arrs.length ds _ h' _ Arr.empty h1 (by simp) hr
  exact ⟨s, g2, by rw [g3]; simp [readArr, Arr.empty]⟩

/-! ## C42 -/

/-- C42 (partial): however a program mixes pushes, stores, appends and copies, as long as it copies no empty array, a step
on one array never changes what is read from another one; in particular steps on a copy never change the original and
conversely.  Missing: copies of empty arrays, see `C42_violated`. -/
theorem C42_independent_partial (a : Arena) (h h' : Heap) (vs : List (List Elem)) (hH : Hist a h vs) (ops : List HOp)
    (hv : AllValid ops h vs) (hr : runHs ops h = .ok h') (i : Nat) (k : Kind) (s : Arr)
    (hi : h.arrs[i]? = some (k, s)) (hno : ∀ op ∈ ops, op.target ≠ some i) :
    ∃ s', h'.arrs[i]? = some (k, s') ∧ readArr h'.arena.mem k s' = readArr h.arena.mem k s := by
  induction ops generalizing h vs s with
  | nil => cases hr; exact ⟨s, hi, rfl⟩
  | cons op ops ih =>
    obtain ⟨hv1, hv2⟩ := hv
    unfold runHs at hr
    cases hq : runH op h with
    | ok h1 =>
      rw [hq] at hr
      simp only [Out.bind_ok] at hr
      have hH1 := hH.step hv1 hq
      have ht := hno op (by simp)
      have hlt : i < h.arrs.length := (List.getElem?_eq_some_iff.1 hi).1
      have hkeep : h1.arrs[i]? = some (k, s) := by
        cases op with
        | new k' => simp only [runH] at hq; cases hq; rw [List.getElem?_append_left hlt]; exact hi
        | push j z e =>
          have hne : j ≠ i := fun e => ht (by simp [HOp.target, e])
          obtain ⟨k', s', hj, _⟩ := hv1
          simp only [runH, hj] at hq
          cases hp : arrPushElem k'.size k'.align z e s' h.arena with
          | ok v => rw [hp] at hq; simp only [Out.bind_ok] at hq; cases hq; simpa [hne] using hi
          | longjmp => rw [hp] at hq; cases hq
          | ub w => rw [hp] at hq; cases hq
          | hang => rw [hp] at hq; cases hq
        | set j t e =>
          obtain ⟨k', s', hj, _⟩ := hv1
          simp only [runH, hj] at hq
          cases hp : arrSet k'.size t e s' h.arena with
          | ok v => rw [hp] at hq; simp only [Out.bind_ok] at hq; cases hq; exact hi
          | longjmp => rw [hp] at hq; cases hq
          | ub w => rw [hp] at hq; cases hq
          | hang => rw [hp] at hq; cases hq
        | copy j =>
          obtain ⟨hj, _⟩ := hv1
          have hj' := List.getElem?_eq_getElem hj
          simp only [runH, hj'] at hq
          cases hp : arrCopy h.arrs[j].1.size h.arrs[j].1.align h.arrs[j].2 h.arena with
          | ok v =>
            rw [hp] at hq; simp only [Out.bind_ok] at hq; cases hq
            rw [List.getElem?_append_left hlt]; exact hi
          | longjmp => rw [hp] at hq; cases hq
          | ub w => rw [hp] at hq; cases hq
          | hang => rw [hp] at hq; cases hq
        | append j d =>
          have hne : j ≠ i := fun e => ht (by simp [HOp.target, e])
          obtain ⟨s', hj⟩ := hv1
          simp only [runH, hj] at hq
          cases hp : rawAdd d s' h.arena with
          | ok v => rw [hp] at hq; simp only [Out.bind_ok] at hq; cases hq; simpa [hne] using hi
          | longjmp => rw [hp] at hq; cases hq
          | ub w => rw [hp] at hq; cases hq
          | hang => rw [hp] at hq; cases hq
        | alloc r =>
          simp only [runH] at hq
          cases hp : arenaAlloc r.size r.align r.count r.zero r.nullOnFail h.arena with
          | ok v => rw [hp] at hq; simp only [Out.bind_ok] at hq; cases hq; exact hi
          | longjmp => rw [hp] at hq; cases hq
          | ub w => rw [hp] at hq; cases hq
          | hang => rw [hp] at hq; cases hq
      have hval : readArr h1.arena.mem k s = readArr h.arena.mem k s := by
        have e0 := (C46_contents a h vs hH i k s hi).1
        have e1 := (C46_contents a h1 _ hH1 i k s hkeep).1
        have hlv : i < vs.length := (List.getElem?_eq_some_iff.1 e0).1
        have : (absH op vs)[i]? = vs[i]? := by
          cases op with
          | new k' => simp only [absH]; rw [List.getElem?_append_left hlv]
          | push j z e =>
            have hne : j ≠ i := fun e => ht (by simp [HOp.target, e])
            simp [absH, List.getElem?_modify, hne]
          | set j t e =>
            have hne : j ≠ i := fun e => ht (by simp [HOp.target, e])
            simp [absH, List.getElem?_modify, hne]
          | copy j => simp only [absH]; rw [List.getElem?_append_left hlv]
          | append j d =>
            have hne : j ≠ i := fun e => ht (by simp [HOp.target, e])
            simp [absH, List.getElem?_modify, hne]
          | alloc r => rfl
        rw [this, e0] at e1
        exact (Option.some.inj e1).symm
      obtain ⟨s', g1, g2⟩ := ih h1 _ hH1 (hv2 h1 hq) hr s hkeep (fun o ho => hno o (by simp [ho]))
      exact ⟨s', g1, g2.trans hval⟩
    | longjmp => rw [hq] at hr; cases hr
    | ub w => rw [hq] at hr; cases hr
    | hang => rw [hq] at hr; cases hr

/-- C42 (partial): a copy starts with the elements of the original. -/
theorem C42_copy_partial (a : Arena) (h h' : Heap) (vs : List (List Elem)) (hH : Hist a h vs) (i : Nat) (k : Kind) (s : Arr)
    (hi : h.arrs[i]? = some (k, s)) (hne : readArr h.arena.mem k s ≠ []) (hr : runH (.copy i) h = .ok h') :
    ∃ s', h'.arrs[h.arrs.length]? = some (k, s') ∧ readArr h'.arena.mem k s' = readArr h.arena.mem k s := by
  have e0 := (C46_contents a h vs hH i k s hi).1
  have hlt : i < h.arrs.length := (List.getElem?_eq_some_iff.1 hi).1
  have hv : (HOp.copy i).Valid h vs := ⟨hlt, by rw [List.getD_eq_getElem?_getD, e0]; exact hne⟩
  have hH1 := hH.step hv hr
  simp only [runH, hi] at hr
  cases hp : arrCopy k.size k.align s h.arena with
  | ok v =>
    rw [hp] at hr; simp only [Out.bind_ok] at hr; cases hr
    have hk : (h.arrs ++ [(k, v.1)])[h.arrs.length]? = some (k, v.1) := by simp
    refine ⟨v.1, hk, ?_⟩
    have e1 := (C46_contents a _ _ hH1 _ k v.1 hk).1
    have : (absH (.copy i) vs)[h.arrs.length]? = some (readArr h.arena.mem k s) := by
      simp only [absH]
      rw [← hH.inv.len]
      simp [e0]
    rw [this] at e1
    exact (Option.some.inj e1).symm
  | longjmp => rw [hp] at hr; cases hr
  | ub w => rw [hp] at hr; cases hr
  | hang => rw [hp] at hr; cases hr

/-- C42 (violated): duplicate an empty array, push onto the duplicate, then push onto the original: the duplicate's element
has been overwritten by the original's. -/
theorem C42_violated :
    ∃ (a : Arena) (h : Heap), ArenaOK a ∧ Hist a ⟨a, [(⟨1, 1⟩, Arr.empty)]⟩ [[]] ∧
      runHs [.copy 0, .push 1 false [7], .push 0 false [9]] ⟨a, [(⟨1, 1⟩, Arr.empty)]⟩ = .ok h ∧
      ∃ s, h.arrs[1]? = some (⟨1, 1⟩, s) ∧ readArr h.arena.mem ⟨1, 1⟩ s = [[9]] := by
  refine ⟨⟨64, 1024, fun _ => 0⟩, _, ⟨by decide, by decide, by decide⟩, ?_, rfl, _, rfl, ?_⟩
  · have hk : Kind.OK ⟨1, 1⟩ := ⟨by decide, isAlign_one, by decide⟩
    exact (Hist.start ⟨by decide, by decide, by decide⟩).step (op := .new ⟨1, 1⟩) hk rfl
  · decide +kernel

/-- C42 (violated): the same at work: the slot a push returns for the duplicate of an empty array is outside the array's capacity. -/
theorem C42_slot_violated :
    ∃ (a : Arena) (p : Int) (s s' : Arr) (a' a'' : Arena), arrCopy 2 2 Arr.empty a = .ok (s, a') ∧
      arrPush 2 2 false s a' = .ok (p, s', a'') ∧ s'.cap = 0 ∧ s'.buf = some p ∧ a''.beg = p :=
  ⟨⟨64, 1024, fun _ => 0⟩, 64, _, _, _, _, rfl, rfl, rfl, by decide, by decide⟩

/-! A history that meets the hypotheses of the theorems above -/

def kindB (k : Kind) : Bool := decide (0 < k.size) && decide (k.align ∈ [1, 2, 4, 8]) && decide (k.align ∣ k.size)

theorem kindB_ok {k : Kind} (h : kindB k = true) : k.OK := by
  simp only [kindB, Bool.and_eq_true, decide_eq_true_eq] at h
  refine ⟨h.1.1, ?_, h.2⟩
  have := h.1.2
  simp only [List.mem_cons, List.not_mem_nil, or_false] at this
  rcases this with e | e | e | e <;> rw [e]
  · exact ⟨0, by omega, rfl⟩
  · exact ⟨1, by omega, rfl⟩
  · exact ⟨2, by omega, rfl⟩
  · exact ⟨3, by omega, rfl⟩

def validB (op : HOp) (h : Heap) (vs : List (List Elem)) : Bool :=
  match op with
  | .new k => kindB k
  | .push i _ e => match h.arrs[i]? with | some (k, _) => decide ((e.length : Int) = k.size) | none => false
  | .set i t e =>
    match h.arrs[i]? with
    | some (k, _) => decide ((e.length : Int) = k.size) && decide (t < (vs.getD i []).length)
    | none => false
  | .copy i => decide (i < h.arrs.length) && !(vs.getD i []).isEmpty
  | .append i _ => match h.arrs[i]? with | some (k, _) => decide (k = ⟨1, 1⟩) | none => false
  | .alloc _ => false

theorem validB_ok {op : HOp} {h : Heap} {vs : List (List Elem)} (hb : validB op h vs = true) : op.Valid h vs := by
  cases op with
  | new k => exact kindB_ok hb
  | push i z e =>
    unfold validB at hb
    cases hi : h.arrs[i]? with
    | none => simp [hi] at hb
    | some v => simp [hi] at hb; exact ⟨v.1, v.2, hi, hb⟩
  | set i t e =>
    unfold validB at hb
    cases hi : h.arrs[i]? with
    | none => simp [hi] at hb
    | some v =>
      simp only [hi, Bool.and_eq_true, decide_eq_true_eq] at hb
      exact ⟨v.1, v.2, hi, hb.1, hb.2⟩
  | copy i =>
    unfold validB at hb
    simp only [Bool.and_eq_true, decide_eq_true_eq, Bool.not_eq_true'] at hb
    exact ⟨hb.1, fun e => by rw [e] at hb; simp at hb⟩
  | append i d =>
    unfold validB at hb
    cases hi : h.arrs[i]? with
    | none => simp [hi] at hb
    | some v => simp [hi] at hb; exact ⟨v.2, by rw [← hb]; exact hi⟩
  | alloc r => cases hb

def runB : List HOp → Heap → List (List Elem) → Out (Heap × List (List Elem))
  | [], h, vs => .ok (h, vs)
  | op :: ops, h, vs => if validB op h vs then (runH op h).bind fun h' => runB ops h' (absH op vs) else .hang

theorem runB_hist (a : Arena) : ∀ (ops : List HOp) (h : Heap) (vs : List (List Elem)) (h' : Heap) (vs' : List (List Elem)),
    Hist a h vs → runB ops h vs = .ok (h', vs') → Hist a h' vs' := by
  intro ops
  induction ops with
  | nil => intro h vs h' vs' hH hr; cases hr; exact hH
  | cons op ops ih =>
    intro h vs h' vs' hH hr
    unfold runB at hr
    by_cases hb : validB op h vs = true
    · rw [if_pos hb] at hr
      cases hq : runH op h with
      | ok h1 => rw [hq] at hr; exact ih h1 _ h' vs' (hH.step (validB_ok hb) hq) hr
      | longjmp => rw [hq] at hr; cases hr
      | ub w => rw [hq] at hr; cases hr
      | hang => rw [hq] at hr; cases hr
    · rw [if_neg hb] at hr; cases hr

/-- The theorems above apply: two arrays and a byte buffer in one arena; one array is moved when it grows, and one is copied. -/
theorem C46_example :
    ∃ (a : Arena) (h : Heap) (vs : List (List Elem)), Hist a h vs ∧
      vs = [[[1, 2, 3, 4], [0, 0, 0, 1], [11, 12, 13, 14]], [[5, 6]], [[20], [21], [22], [23], [24], [25], [26]],
          [[1, 2, 3, 4], [0, 0, 0, 1], [11, 12, 13, 14], [9, 9, 9, 9]]] ∧
      h.arrs.map (fun ks => readArr h.arena.mem ks.1 ks.2) = vs := by
  obtain ⟨⟨h, vs⟩, h1, h2⟩ := okAnd_ex (x := runB [.new ⟨4, 4⟩, .new ⟨2, 2⟩, .push 0 false [1, 2, 3, 4], .push 1 true [5, 6],
      .push 0 false [7, 8, 9, 10], .push 0 false [11, 12, 13, 14], .new ⟨1, 1⟩, .append 2 [20, 21, 22],
      .append 2 [23, 24, 25, 26], .set 0 1 [0, 0, 0, 1], .copy 0, .push 3 false [9, 9, 9, 9]] ⟨⟨65, 1024, fun _ => 0⟩, []⟩ [])
    (p := fun v => decide (v.2 = [[[1, 2, 3, 4], [0, 0, 0, 1], [11, 12, 13, 14]], [[5, 6]], [[20], [21], [22], [23], [24], [25], [26]],
          [[1, 2, 3, 4], [0, 0, 0, 1], [11, 12, 13, 14], [9, 9, 9, 9]]] ∧
      v.1.arrs.map (fun ks => readArr v.1.arena.mem ks.1 ks.2) = v.2)) (by decide +kernel)
  have h3 := of_decide_eq_true h2
  exact ⟨_, h, vs, runB_hist _ _ _ _ _ _ (Hist.start ⟨by decide, by decide, by decide⟩) h1, h3.1, h3.2⟩

end Flo
