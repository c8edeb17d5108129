import Verif.Proofs.SetMem
import Verif.Proofs.QuerySem
/-!
# Queries with their sets in the arena's memory
-/
namespace Flo
open Spec

/-- Two sets share no byte. -/
def Sep (s t : MSet) : Prop := ∀ x, SBlk s x → ¬SBlk t x

theorem Sep.symm {s t : MSet} (h : Sep s t) : Sep t s := fun x h1 h2 => h x h2 h1

/-- The memory at `s` is the set `m`, in bytes that may be changed: those of `M` and those allocated since `a0`. -/
structure Own (M : Int → Prop) (a0 a : Arena) (s : MSet) (m : U16Set) : Prop where
  holds : Holds a s m
  sub : ∀ x, SBlk s x → M x ∨ (a0.beg ≤ x ∧ x < a.beg)

/-- Result of a step, from `a`, that changes bytes of `N` and new ones only, and makes the set `m'`. -/
structure MRes (M : Int → Prop) (a0 a : Arena) (N : Int → Prop) (lim : Int) (m' : U16Set) (r : MSet × Arena) : Prop where
  step : Step M a0 r.2
  good : Own M a0 r.2 r.1 m'
  room : r.2.beg + pot r.1.exp ≤ lim
  frame : ∀ t mt, (∀ x, SBlk t x → ¬N x) → Own M a0 a t mt → Own M a0 r.2 t mt ∧ Sep t r.1

theorem MRes.trans {M N : Int → Prop} {a0 a : Arena} {lim lim' : Int} {m1 m2 : U16Set} {q r : MSet × Arena} (h : MRes M a0 a N lim' m1 q)
    (h' : MRes M a0 q.2 (SBlk q.1) lim m2 r) : MRes M a0 a N lim m2 r :=
  ⟨h'.step, h'.good, h'.room, fun t mt hs g => by
    obtain ⟨g1, g2⟩ := h.frame t mt hs g
    exact h'.frame t mt g2 g1⟩

theorem MRes.refl {M : Int → Prop} {a0 a : Arena} {s : MSet} {m : U16Set} {lim : Int} (c : Step M a0 a) (g : Own M a0 a s m)
    (hl : a.beg + pot s.exp ≤ lim) : MRes M a0 a (SBlk s) lim m (s, a) :=
  ⟨c, g, hl, fun _ _ hs h => ⟨h, hs⟩⟩

theorem MRes.mono {M N : Int → Prop} {a0 a : Arena} {lim lim' : Int} {m : U16Set} {r : MSet × Arena} (h : MRes M a0 a N lim m r) (hl : lim ≤ lim') :
    MRes M a0 a N lim' m r := ⟨h.step, h.good, le_trans h.room hl, h.frame⟩

theorem Sim.same {α : Type} {stop lim : Int} {p : Out α} : Sim stop lim p p Eq := fun r h => Or.inr ⟨r, h, rfl⟩

theorem Sim.limit {α β : Type} {stop lim lim' : Int} {p : Out α} {x : Out β} {R : α → β → Prop} (h : Sim stop lim p x R)
    (hl : lim ≤ lim') : Sim stop lim' p x R := h.mono hl (fun _ _ h => h)

theorem Sim.post {α β : Type} {stop lim : Int} {p : Out α} {x : Out β} {R Q : α → β → Prop} (h : Sim stop lim p x R)
    (hR : ∀ r b, p = .ok r → R r b → Q r b) : Sim stop lim p x Q := by
  intro q hq
  rcases h q hq with h | ⟨b, h1, h2⟩
  · exact Or.inl h
  · exact Or.inr ⟨b, h1, hR _ _ hq h2⟩

section
variable {M : Int → Prop} {a0 : Arena} (hf : a0.beg ≤ a0.stop)
include hf

theorem Step.fits {a : Arena} (c : Step M a0 a) : a.beg ≤ a.stop := by rw [c.stop]; exact c.fit hf

/-- Other sets survive a step on `N`. -/
theorem good_frame {a a' : Arena} {N : Int → Prop} (st : Step N a a') {t : MSet} {mt : U16Set} (g : Own M a0 a t mt)
    (hs : ∀ x, SBlk t x → ¬N x) : Own M a0 a' t mt :=
  ⟨g.holds.keep st hs, fun x hx => (g.sub x hx).imp id (fun h => by have := st.beg; omega)⟩

theorem insert_good {a : Arena} {s : MSet} {m : U16Set} (c : Step M a0 a) (g : Own M a0 a s m) {v : Nat} (hv : v < 65536)
    (hx : v ≠ 0 ∨ U16Exact m) {lim : Int} (hl : a.beg + pot s.exp ≤ lim) :
    Sim a0.stop lim (u16Insert v m) (memInsert v s a) (MRes M a0 a (SBlk s) lim) := by
  rw [← c.stop]
  refine (insert_mem g.holds (c.fits hf) hv hx hl).mono (le_refl _) ?_
  rintro m' ⟨s', a'⟩ ⟨h1, h2, h3, h4⟩
  dsimp only at h1 h2 h3 h4
  have hsub : ∀ x, SBlk s x → M x ∨ (a0.beg ≤ x ∧ x < a.beg) := g.sub
  have hb := h2.beg
  have hc := c.beg
  refine ⟨c.trans h2 hsub hf, ⟨h1, fun x hx => ?_⟩, h4, fun t mt hs gt => ⟨good_frame hf h2 gt hs, fun x hx hx' => ?_⟩⟩
  · dsimp only
    rcases h3 x hx with h | h
    · exact (hsub x h).imp id (fun h => by omega)
    · exact Or.inr (by omega)
  · rcases h3 x hx' with h | h
    · exact hs x hx h
    · have := gt.holds.top
      have := hx.2
      omega

theorem reset_good {a : Arena} {s : MSet} {m : U16Set} (c : Step M a0 a) (g : Own M a0 a s m) {lim : Int} (hl : a.beg + pot s.exp ≤ lim) :
    MRes M a0 a (SBlk s) lim (u16Reset m) (memReset s a) := by
  have st : Step (SBlk s) a (memReset s a).2 := by
    refine ⟨le_refl _, rfl, id, fun x hx _ => ?_⟩
    show memZero s.buf (2 * 2 ^ s.exp) a.mem x = a.mem x
    unfold memZero
    rw [if_neg (by intro h; exact hx h)]
  refine ⟨c.trans st g.sub hf, ⟨⟨⟨g.holds.exp, rfl, g.holds.top, by simp [u16Reset], fun i hi => ?_⟩, g.holds.ok.reset.1⟩, fun x hx => g.sub x hx⟩, hl,
    fun t mt hs gt => ⟨good_frame hf st gt hs, hs⟩⟩
  have hi' : i < 2 ^ s.exp := hi
  obtain ⟨h1, h2⟩ := slot_in hi'
  show (List.replicate (2 ^ m.exp) 0)[i]? = some (read16 (memZero s.buf (2 * 2 ^ s.exp) a.mem) (s.buf + 2 * (i : Int)))
  rw [List.getElem?_replicate, if_pos (by rw [← g.holds.exp]; exact hi')]
  unfold SBlk at h1 h2
  unfold read16 memZero
  rw [if_pos h1, if_pos h2]
  rfl

/-- A new set of size `2 ^ e`. -/
theorem new_good {a : Arena} (c : Step M a0 a) {e : Nat} {m : U16Set} (hm : m = ⟨e, 0, List.replicate (2 ^ e) 0⟩) (ho : U16OK hashID m)
    {lim : Int} (hl : a.beg + 2 * 2 ^ e + 1 + pot e ≤ lim) :
    Sim a0.stop lim (Out.ok m) (memNewSet e a) (fun m' r => MRes M a0 a (fun _ => False) lim m' r ∧ r.1.exp = e ∧ r.1.len = 0 ∧ a.beg ≤ r.1.buf ∧
      r.2.beg = r.1.buf + 2 * 2 ^ e) := by
  have he : e ≤ 18 := by have := ho.small; rw [hm] at this; exact this
  have hp := pot_nonneg he
  intro r hr
  cases hr
  rcases newSet_mem e (by omega) a with ⟨h1, h2⟩ | ⟨s, a', e1, e2, e3, e4, e5, e6, e7, e8, e9, e10⟩
  · exact Or.inl ⟨h1, by have := c.stop; omega⟩
  · right
    have hpos : (0 : Int) < 2 ^ e := by rw [← two_pow_cast]; exact_mod_cast Nat.two_pow_pos e
    have st : Step (fun _ => False) a a' := ⟨by omega, e9, fun _ => e8, fun x _ hx => e10 x (by omega)⟩
    refine ⟨(s, a'), e1, ⟨c.trans st (fun _ h => False.elim h) hf, ⟨⟨by rw [hm]; exact e3, ho⟩, fun x hx => Or.inr ?_⟩, ?_, fun t mt hs gt =>
      ⟨good_frame hf st gt hs, fun x hx hx' => ?_⟩⟩, e2, ?_, e4, e5⟩
    · have h1 := hx.1
      have h2 := hx.2
      dsimp only at h1 h2 ⊢
      rw [e2] at h2
      have := c.beg
      omega
    · dsimp only; rw [e2]; omega
    · have h1 := hx'.1
      dsimp only at h1
      have := gt.holds.top
      have := hx.2
      omega
    · have := e3.len; exact this

/-- A copy. -/
theorem copy_good {a : Arena} {s : MSet} {m : U16Set} (c : Step M a0 a) (g : Own M a0 a s m) {lim : Int}
    (hl : a.beg + 2 * 2 ^ s.exp + 1 + pot s.exp ≤ lim) :
    Sim a0.stop lim (Out.ok m) (memCopySet s a) (fun m' r => MRes M a0 a (fun _ => False) lim m' r ∧ r.1.exp = s.exp) := by
  have hok := g.holds.ok
  have hr : U16OK hashID (⟨s.exp, 0, List.replicate (2 ^ s.exp) 0⟩ : U16Set) := by
    rw [g.holds.exp]; exact hok.reset.1
  intro r hr'
  cases hr'
  unfold memCopySet
  rcases new_good hf c rfl hr hl _ rfl with ⟨h1, h2⟩ | ⟨⟨n, a1⟩, h1, h2, h3, h4, h5, h6⟩
  · exact Or.inl ⟨by rw [h1]; rfl, h2⟩
  · right
    rw [h1]
    dsimp only at h3 h4 h5 h6
    have hpos : (0 : Int) < 2 ^ s.exp := by rw [← two_pow_cast]; exact_mod_cast Nat.two_pow_pos s.exp
    have htop := g.holds.top
    have hdst : ∀ x, SBlk n x ↔ n.buf ≤ x ∧ x < n.buf + 2 * 2 ^ s.exp := by intro x; unfold SBlk; rw [h3]
    have st : Step (SBlk n) a1 { a1 with mem := memCopy n.buf s.buf (2 * 2 ^ s.exp) a1.mem } := by
      refine ⟨le_refl _, rfl, id, fun x hx _ => ?_⟩
      show memCopy _ _ _ _ x = _
      unfold memCopy
      rw [if_neg (by rw [hdst] at hx; exact hx)]
    obtain ⟨gs, sep⟩ := h2.frame s m (fun _ _ => id) g
    dsimp only at gs sep
    refine ⟨({ n with len := s.len }, { a1 with mem := memCopy n.buf s.buf (2 * 2 ^ s.exp) a1.mem }),
      (by rw [Out.bind_ok]; dsimp only; unfold memcpyC; rw [if_neg (by omega)]; rfl),
      ⟨h2.step.trans st h2.good.sub hf, ⟨⟨⟨?_, gs.holds.len, ?_, gs.holds.size, fun i hi => ?_⟩, hok⟩, fun x hx => h2.good.sub x hx⟩,
      h2.room, fun t mt hs gt => ?_⟩, h3⟩
    · show n.exp = m.exp; rw [h3]; exact gs.holds.exp
    · exact h2.good.holds.top
    · have hi' : i < 2 ^ s.exp := by rw [← h3]; exact hi
      have hi2 : (i : Int) < 2 ^ s.exp := by rw [← two_pow_cast]; exact_mod_cast hi'
      rw [gs.holds.slots i hi']
      show _ = some (read16 (memCopy n.buf s.buf (2 * 2 ^ s.exp) a1.mem) (n.buf + 2 * (i : Int)))
      unfold read16 memCopy
      rw [if_pos (by omega), if_pos (by omega)]
      rw [show n.buf + 2 * (i : Int) - n.buf + s.buf = s.buf + 2 * (i : Int) by omega,
        show n.buf + 2 * (i : Int) + 1 - n.buf + s.buf = s.buf + 2 * (i : Int) + 1 by omega]
    · obtain ⟨g1, g2⟩ := h2.frame t mt hs gt
      exact ⟨good_frame hf st g1 g2, g2⟩

/-- The set is read without being changed. -/
theorem contains_good {a : Arena} {s : MSet} {m : U16Set} (g : Own M a0 a s m) {v : Nat} {b : Bool} (hb : u16Contains v m = .ok b) :
    memContains v s a.mem = .ok b := by
  have key : ∀ (f : Nat) (i : UInt32), msiContainsLoop 0 v (hashID v) m f i = .ok b → memContainsLoop v (hashID v) s a.mem f i = .ok b := by
    intro f
    induction f with
    | zero => intro i h; cases h
    | succ f ih =>
      intro i h
      unfold msiContainsLoop at h
      unfold memContainsLoop
      dsimp only at h ⊢
      rw [show indexLookup (hashID v) s.exp i = indexLookup (hashID v) m.exp i by rw [g.holds.exp]]
      cases hx : m.buf[(indexLookup (hashID v) m.exp i).toNat]? with
      | none => rw [hx] at h; cases h
      | some x =>
        rw [hx] at h
        dsimp only at h
        rw [g.holds.slot hx, Out.bind_ok]
        by_cases h0 : x = 0
        · rw [if_pos h0] at h ⊢; exact h
        · rw [if_neg h0] at h ⊢
          by_cases h1 : x = v
          · rw [if_pos h1] at h ⊢; exact h
          · rw [if_neg h1] at h ⊢; exact ih _ h
  unfold u16Contains msiContains at hb
  unfold memContains
  rw [g.holds.exp]
  exact key _ _ hb

variable {pun : Nat → Nat} {d : Dom} {ch : Nat → List Nat} {fs : List Filter}

theorem allNodes_good : ∀ (l : List Nat) {a : Arena} {s : MSet} {m : U16Set} {lim : Int}, Step M a0 a → Own M a0 a s m → (∀ i ∈ l, i ≠ 0 ∧ i < 65536) →
    a.beg + pot s.exp ≤ lim →
    Sim a0.stop lim (allNodesLoop pun fs d l m) (memAllNodesLoop pun fs d l s a) (MRes M a0 a (SBlk s) lim) := by
  intro l
  induction l with
  | nil => intro a s m lim c g _ hl; exact Sim.ok (MRes.refl c g hl)
  | cons i l ih =>
    intro a s m lim c g hi hl
    unfold allNodesLoop memAllNodesLoop
    refine Sim.bind Sim.same (fun keep b _ _ hk => ?_)
    cases hk
    by_cases hkeep : keep = true
    · rw [if_pos hkeep, if_pos hkeep]
      refine Sim.bind (insert_good hf c g (hi i (by simp)).2 (Or.inl (hi i (by simp)).1) hl) ?_
      rintro m1 ⟨s1, a1⟩ - - h1
      exact (ih h1.step h1.good (fun j hj => hi j (List.mem_cons_of_mem _ hj)) h1.room).post (fun _ _ _ h => h1.trans h)
    · rw [if_neg hkeep, if_neg hkeep]
      exact ih c g (fun j hj => hi j (List.mem_cons_of_mem _ hj)) hl

theorem nodesWithout_good (hcap : d.nodes.length ≤ 65535) {a : Arena} {s : MSet} {m : U16Set} {lim : Int} (c : Step M a0 a) (g : Own M a0 a s m)
    (hx : U16Exact m) (hl : a.beg + pot s.exp ≤ lim) :
    Sim a0.stop lim (nodesWithoutCombinator pun fs d m) (memAllNodesLoop pun fs d (List.range d.nodes.length) s a) (MRes M a0 a (SBlk s) lim) := by
  unfold nodesWithoutCombinator
  cases hn : d.nodes.length with
  | zero => exact Sim.ok (MRes.refl c g hl)
  | succ n =>
    rw [List.range_succ_eq_map]
    have hi : ∀ i ∈ (List.range n).map Nat.succ, i ≠ 0 ∧ i < 65536 := by
      intro i hi
      simp only [List.mem_map, List.mem_range] at hi
      omega
    unfold allNodesLoop memAllNodesLoop
    refine Sim.bind Sim.same (fun keep b _ _ hk => ?_)
    cases hk
    by_cases hkeep : keep = true
    · rw [if_pos hkeep, if_pos hkeep]
      refine Sim.bind (insert_good hf c g (by omega) (Or.inr hx) hl) ?_
      rintro m1 ⟨s1, a1⟩ - - h1
      exact (allNodes_good hf _ h1.step h1.good hi h1.room).post (fun _ _ _ h => h1.trans h)
    · rw [if_neg hkeep, if_neg hkeep]
      exact allNodes_good hf _ c g hi hl

theorem siblings_good (h : LinkedD d ch) (hcap : d.nodes.length ≤ 65535) : ∀ (f : Nat) (k : Option Nat) (next : Nat) {a : Arena} {s : MSet} {m : U16Set} {lim : Int},
    Step M a0 a → Own M a0 a s m → next < d.nodes.length → a.beg + pot s.exp ≤ lim →
    Sim a0.stop lim (siblingsLoop pun fs d f k next m) (memSiblingsLoop pun fs d f k next s a) (MRes M a0 a (SBlk s) lim) := by
  intro f
  induction f with
  | zero => intro k next a s m lim c g _ _ r hr; cases hr
  | succ f ih =>
    intro k next a s m lim c g hnext hl
    unfold siblingsLoop memSiblingsLoop
    by_cases hk : k ≠ some 0 ∧ next > 0
    · rw [if_pos hk, if_pos hk]
      refine Sim.bind Sim.same (fun keep b _ _ hk => ?_)
      cases hk
      by_cases hkeep : keep = true
      · rw [if_pos hkeep, if_pos hkeep]
        refine Sim.bind (insert_good hf c g (by omega) (Or.inl (by omega)) hl) ?_
        rintro m1 ⟨s1, a1⟩ - - h1
        exact (ih _ _ h1.step h1.good (getNext_lt h next) h1.room).post (fun _ _ _ h => h1.trans h)
      · rw [if_neg hkeep, if_neg hkeep]
        exact ih _ _ c g (getNext_lt h next) hl
    · rw [if_neg hk, if_neg hk]
      exact Sim.ok (MRes.refl c g hl)

theorem adjacents_good (h : LinkedD d ch) (hcap : d.nodes.length ≤ 65535) (k : Option Nat) {set : MSet} {ms : U16Set} :
    ∀ (n i : Nat) {a : Arena} {s : MSet} {m : U16Set} {lim : Int}, i + n = 2 ^ set.exp → Step M a0 a → Own M a0 a set ms → Sep set s → Own M a0 a s m →
    a.beg + pot s.exp ≤ lim →
    Sim a0.stop lim (adjacentsLoop pun fs d k ((ms.buf.drop i).filter (· ≠ 0)) m) (memAdjacentsLoop pun fs d k set n i s a) (MRes M a0 a (SBlk s) lim) := by
  intro n
  induction n with
  | zero =>
    intro i a s m lim hi c gs _ g hl
    rw [show i = 2 ^ set.exp by omega, gs.holds.done]
    exact Sim.ok (MRes.refl c g hl)
  | succ n ih =>
    intro i a s m lim hi c gs hsep g hl
    obtain ⟨v, e1, e2, e3⟩ := gs.holds.next hi
    rw [e2]
    unfold memAdjacentsLoop
    rw [e1, Out.bind_ok]
    by_cases hv : v ≠ 0
    · rw [if_pos hv, List.filter_cons_of_pos (by simpa using hv)]
      unfold adjacentsLoop
      refine Sim.bind (siblings_good hf h hcap _ _ _ c g (getNext_lt h v) hl) ?_
      rintro m1 ⟨s1, a1⟩ - - h1
      obtain ⟨g1, g2⟩ := h1.frame set ms hsep gs
      exact (ih (i + 1) (by omega) h1.step g1 g2 h1.good h1.room).post (fun _ _ _ h => h1.trans h)
    · rw [if_neg hv, List.filter_cons_of_neg (by simpa using hv)]
      exact ih (i + 1) (by omega) c gs hsep g hl

theorem filteredAdjacents_good (h : LinkedD d ch) (hcap : d.nodes.length ≤ 65535) (k : Option Nat) {set : MSet} {ms : U16Set}
    {a : Arena} {lim : Int} (c : Step M a0 a) (g : Own M a0 a set ms) (hl : a.beg + 5 * 2 ^ 18 ≤ lim) :
    Sim a0.stop lim (filteredAdjacents pun fs d k ms) (memFilteredAdjacents pun fs d k set a) (MRes M a0 a (SBlk set) lim) := by
  unfold filteredAdjacents memFilteredAdjacents
  have := Sim.bind (f := fun m => adjacentsLoop pun fs d k (ms.toList 0) m)
    (g := fun r : MSet × Arena => memAdjacentsLoop pun fs d k set (2 ^ set.exp) 0 r.1 r.2) (Q := MRes M a0 a (SBlk set) lim)
    (new_good hf c (e := 7) (m := U16Set.fresh) rfl (U16OK.fresh hashID).1 (lim := lim) (by unfold pot; omega)) (by
    rintro m1 ⟨s1, a1⟩ hm1 - ⟨h1, -⟩
    cases hm1
    obtain ⟨g1, g2⟩ := h1.frame set ms (fun _ _ => id) g
    have := adjacents_good (pun := pun) (fs := fs) hf h hcap k (2 ^ set.exp) 0 (by omega) h1.step g1 g2 h1.good h1.room
    rw [List.drop_zero] at this
    refine this.post (fun _ _ _ h => ?_)
    have := h1.trans h
    exact ⟨this.step, this.good, this.room, fun t mt hs gt => this.frame t mt (fun _ _ => id) gt⟩)
  rw [Out.bind_ok] at this
  exact this

/-! ## Descendants -/

/-- Result of a step that updates two sets. -/
structure MRes2 (M : Int → Prop) (a0 a : Arena) (t s : MSet) (lim : Int) (m : U16Set × U16Set) (r : MSet × MSet × Arena) : Prop where
  step : Step M a0 r.2.2
  goodT : Own M a0 r.2.2 r.1 m.1
  goodS : Own M a0 r.2.2 r.2.1 m.2
  sep : Sep r.1 r.2.1
  room : r.2.2.beg + pot r.1.exp + pot r.2.1.exp ≤ lim
  frame : ∀ u mu, Sep u t → Sep u s → Own M a0 a u mu → Own M a0 r.2.2 u mu ∧ Sep u r.1 ∧ Sep u r.2.1

theorem Own.potn {a : Arena} {s : MSet} {m : U16Set} (g : Own M a0 a s m) : 0 ≤ pot s.exp :=
  pot_nonneg (by have := g.holds.ok.small; have := g.holds.exp; omega)

theorem descPass_good (hcap : d.nodes.length ≤ 65535) (hz : typeOf d 0 = some .error) {filled : MSet} {mf : U16Set} :
    ∀ (rows : List Row) {a : Arena} {t s : MSet} {mt ms : U16Set} {lim : Int}, Step M a0 a → Own M a0 a filled mf → Own M a0 a t mt →
    Own M a0 a s ms → Sep filled t → Sep filled s → Sep t s → a.beg + pot t.exp + pot s.exp ≤ lim →
    Sim a0.stop lim (descPass pun fs d mf rows mt ms) (memDescPass pun fs d filled rows t s a) (MRes2 M a0 a t s lim) := by
  intro rows
  induction rows with
  | nil =>
    intro a t s mt ms lim c _ gt gs _ _ hts hl
    exact Sim.ok ⟨c, gt, gs, hts, hl, fun u mu h1 h2 g => ⟨g, h1, h2⟩⟩
  | cons row rows ih =>
    obtain ⟨p, cc⟩ := row
    intro a t s mt ms lim c gf gt gs hft hfs hts hl
    unfold descPass memDescPass
    refine Sim.bind Sim.same (fun node b hnode _ hk => ?_)
    cases hk
    have skip := ih c gf gt gs hft hfs hts hl
    by_cases hdoc : node.type = .document
    · rw [if_pos hdoc, if_pos hdoc]
      have hnode' : d.nodes[cc]? = some node := by
        unfold Dom.node at hnode
        cases hx : d.nodes[cc]? with
        | none => rw [hx] at hnode; cases hnode
        | some y => rw [hx] at hnode; cases hnode; rfl
      have hc1 : cc < d.nodes.length := (List.getElem?_eq_some_iff.1 hnode').1
      have hc0 : cc ≠ 0 := by
        rintro rfl
        have := typeOf_eq hnode'
        rw [hz, hdoc] at this; cases this
      rw [gf.holds.ok.contains, contains_good hf gf (gf.holds.ok.contains p), Out.bind_ok, Out.bind_ok]
      by_cases hp : p ∈ mf.toList 0
      · simp only [hp, decide_true, if_true]
        have hpn := Own.potn hf gs
        refine Sim.bind ((insert_good hf c gt (by omega) (Or.inl hc0) (lim := lim - pot s.exp) (by omega)).limit (by omega)) ?_
        rintro mt1 ⟨t1, a1⟩ - - h1
        refine Sim.bind Sim.same (fun keep b _ _ hk => ?_)
        cases hk
        obtain ⟨gf1, sf1⟩ := h1.frame filled mf hft gf
        obtain ⟨gs1, ss1⟩ := h1.frame s ms hts.symm gs
        have r1 := h1.room
        dsimp only at gf1 sf1 gs1 ss1 r1 ⊢
        by_cases hkeep : keep = true
        · rw [if_pos hkeep, if_pos hkeep]
          have gt1 := h1.good
          dsimp only at gt1
          have hpn1 := Own.potn hf gt1
          refine Sim.bind ((insert_good hf h1.step gs1 (by omega) (Or.inl hc0) (lim := lim - pot t1.exp)
            (by dsimp only; omega)).limit (by omega)) ?_
          rintro ms1 ⟨s2, a2⟩ - - h2
          obtain ⟨gf2, sf2⟩ := h2.frame filled mf hfs gf1
          obtain ⟨gt2, st2⟩ := h2.frame t1 mt1 ss1.symm gt1
          have r2 := h2.room
          dsimp only at gf2 sf2 gt2 st2 r2 ⊢
          refine (ih h2.step gf2 gt2 h2.good sf1 sf2 st2 (by dsimp only; omega)).post (fun m r _ h3 => ?_)
          refine ⟨h3.step, h3.goodT, h3.goodS, h3.sep, h3.room, fun u mu ht hs gu => ?_⟩
          obtain ⟨g1, q1⟩ := h1.frame u mu ht gu
          obtain ⟨g2, q2⟩ := h2.frame u mu hs g1
          exact h3.frame u mu q1 q2 g2
        · rw [if_neg hkeep, if_neg hkeep]
          refine (ih h1.step gf1 h1.good gs1 sf1 hfs ss1.symm (by dsimp only; omega)).post (fun m r _ h3 => ?_)
          refine ⟨h3.step, h3.goodT, h3.goodS, h3.sep, h3.room, fun u mu ht hs gu => ?_⟩
          obtain ⟨g1, q1⟩ := h1.frame u mu ht gu
          exact h3.frame u mu q1 hs g1
      · simp only [hp, decide_false, Bool.false_eq_true, if_false]
        exact skip
    · rw [if_neg hdoc, if_neg hdoc]
      exact skip

theorem descLoop_good (hcap : d.nodes.length ≤ 65535) (hz : typeOf d 0 = some .error) :
    ∀ (f : Nat) (k : Option Nat) {a : Arena} {filled t s : MSet} {mf mt ms : U16Set} {lim : Int}, Step M a0 a → Own M a0 a filled mf → Own M a0 a t mt →
    Own M a0 a s ms → Sep filled t → Sep filled s → Sep t s → a.beg + pot filled.exp + pot t.exp + pot s.exp ≤ lim →
    Sim a0.stop lim (descLoop pun fs d f k mf mt ms) (memDescLoop pun fs d f k filled t s a)
      (MRes M a0 a (fun x => SBlk filled x ∨ SBlk t x ∨ SBlk s x) lim) := by
  intro f
  induction f with
  | zero => intro k a filled t s mf mt ms lim c _ _ _ _ _ _ _ r hr; cases hr
  | succ f ih =>
    intro k a filled t s mf mt ms lim c gf gt gs hft hfs hts hl
    unfold descLoop memDescLoop
    rw [gf.holds.len]
    have hpf := Own.potn hf gf
    have hpt := Own.potn hf gt
    by_cases hk : k ≠ some 0 ∧ mf.len > 0
    · rw [if_pos hk, if_pos hk]
      refine Sim.bind ((descPass_good hf hcap hz d.pc c gf gt gs hft hfs hts (lim := lim - pot filled.exp) (by omega)).limit (by omega)) ?_
      rintro ⟨mt1, ms1⟩ ⟨t1, s1, a1⟩ - - h1
      obtain ⟨gf1, q1, q2⟩ := h1.frame filled mf hft hfs gf
      have r1 := h1.room
      have gt1 := h1.goodT
      have gs1 := h1.goodS
      have sep1 := h1.sep
      dsimp only at gf1 q1 q2 r1 gt1 gs1 sep1 ⊢
      have h2 := reset_good hf h1.step gf1 (lim := a1.beg + pot filled.exp) (le_refl _)
      dsimp only at h2
      obtain ⟨gt2, u1⟩ := h2.frame t1 mt1 q1.symm gt1
      obtain ⟨gs2, u2⟩ := h2.frame s1 ms1 q2.symm gs1
      refine (ih (k.map (· - 1)) h2.step gt2 h2.good gs2 u1 sep1 u2.symm ?_).post (fun m r _ h3 => ?_)
      · show a1.beg + pot t1.exp + pot filled.exp + pot s1.exp ≤ lim
        omega
      · refine ⟨h3.step, h3.good, h3.room, fun u mu hs gu => ?_⟩
        obtain ⟨g1, v1, v2⟩ := h1.frame u mu (fun x hx hx' => hs x hx (Or.inr (Or.inl hx'))) (fun x hx hx' => hs x hx (Or.inr (Or.inr hx'))) gu
        have v0 : Sep u filled := fun x hx hx' => hs x hx (Or.inl hx')
        obtain ⟨g2, _⟩ := h2.frame u mu v0 g1
        refine h3.frame u mu (fun x hx hx' => ?_) g2
        rcases hx' with h | h | h
        · exact v1 x hx h
        · exact v0 x hx h
        · exact v2 x hx h
    · rw [if_neg hk, if_neg hk]
      exact Sim.ok ⟨c, gs, by dsimp only; omega, fun u mu hs gu => ⟨gu, fun x hx hx' => hs x hx (Or.inr (Or.inr hx'))⟩⟩

theorem filteredDescendants_good (hcap : d.nodes.length ≤ 65535) (hz : typeOf d 0 = some .error) (k : Option Nat) {set : MSet} {ms : U16Set}
    {a : Arena} {lim : Int} (c : Step M a0 a) (g : Own M a0 a set ms) (hl : a.beg + pot set.exp + 2 * (5 * 2 ^ 18) ≤ lim) :
    Sim a0.stop lim (filteredDescendants pun fs d k ms) (memFilteredDescendants pun fs d k set a) (MRes M a0 a (SBlk set) lim) := by
  have hp := Own.potn hf g
  have hone : (2 : Int) ≤ 2 ^ set.exp := by
    have h1 : 1 ≤ set.exp := by rw [g.holds.exp]; exact g.holds.ok.one
    have : (2 : Nat) ^ 1 ≤ 2 ^ set.exp := Nat.pow_le_pow_right (by omega) h1
    rw [← two_pow_cast]; exact_mod_cast this
  have hpe : pot set.exp = 5 * 2 ^ 18 - 5 * 2 ^ set.exp := rfl
  unfold filteredDescendants memFilteredDescendants
  have hnew : Msi.new (0 : Nat) ms.exp = .ok (u16Reset ms) := by
    unfold Msi.new; rw [if_neg (by have := g.holds.ok.small; omega)]; rfl
  rw [hnew, Out.bind_ok]
  have := Sim.bind (f := fun m => descLoop pun fs d (d.nodes.length + 2) k m (u16Reset ms) (u16Reset ms))
    (g := fun r : MSet × Arena => memNewSet r.1.exp (memReset set r.2).2 >>= fun q =>
      memDescLoop pun fs d (d.nodes.length + 2) k r.1 q.1 (memReset set r.2).1 q.2) (Q := MRes M a0 a (SBlk set) lim)
    ((copy_good hf c g (lim := a.beg + 5 * 2 ^ 18) (by omega)).limit (lim' := lim) (by omega)) (by
    rintro m1 ⟨s1, a1⟩ hm1 - ⟨h1, he1⟩
    cases hm1
    obtain ⟨g1, q1⟩ := h1.frame set ms (fun _ _ => id) g
    have r1 := h1.room
    dsimp only at g1 q1 r1 he1 ⊢
    have h2 := reset_good hf h1.step g1 (lim := a1.beg + pot set.exp) (le_refl _)
    dsimp only at h2
    obtain ⟨g2, q2⟩ := h2.frame s1 ms q1.symm h1.good
    have := Sim.bind (f := fun m => descLoop pun fs d (d.nodes.length + 2) k ms m (u16Reset ms))
      (g := fun q : MSet × Arena => memDescLoop pun fs d (d.nodes.length + 2) k s1 q.1 (memReset set a1).1 q.2) (Q := MRes M a0 a (SBlk set) lim)
      ((new_good hf h2.step (e := s1.exp) (m := u16Reset ms) (by rw [he1, g.holds.exp]; rfl) g.holds.ok.reset.1
        (lim := a1.beg + 5 * 2 ^ 18) (by show a1.beg + _ + _ + _ ≤ _; rw [he1]; omega)).limit (lim' := lim) (by rw [he1] at r1; omega)) (by
      rintro m2 ⟨s2, a2⟩ hm2 - ⟨h3, he3, -⟩
      cases hm2
      obtain ⟨g3, q3⟩ := h3.frame s1 ms (fun _ _ => id) g2
      obtain ⟨g4, q4⟩ := h3.frame _ _ (fun _ _ => id) h2.good
      have r3 := h3.room
      dsimp only at g3 q3 g4 q4 r3 he3 ⊢
      refine (descLoop_good hf hcap hz _ k h3.step g3 h3.good g4 q3 q2 q4.symm ?_).post (fun m r _ h5 => ?_)
      · show a2.beg + pot s1.exp + pot s2.exp + pot set.exp ≤ lim
        rw [he1] at r1 ⊢
        omega
      · refine ⟨h5.step, h5.good, h5.room, fun u mu hs gu => ?_⟩
        obtain ⟨k1, k2⟩ := h1.frame u mu (fun _ _ => id) gu
        obtain ⟨k3, k4⟩ := h2.frame u mu hs k1
        obtain ⟨k5, k6⟩ := h3.frame u mu (fun _ _ => id) k3
        refine h5.frame u mu (fun x hx hx' => ?_) k5
        rcases hx' with h | h | h
        · exact k2 x hx h
        · exact k6 x hx h
        · exact hs x hx h)
    rw [Out.bind_ok] at this
    exact this)
  rw [Out.bind_ok] at this
  exact this

theorem applyCombinator_good (h : DomI d ch) (cb : Combinator) {set : MSet} {ms : U16Set}
    {a : Arena} {lim : Int} (c : Step M a0 a) (g : Own M a0 a set ms) (hx : cb = .none → U16Exact ms) (hl : a.beg + pot set.exp + 2 * (5 * 2 ^ 18) ≤ lim) :
    Sim a0.stop lim (applyCombinator pun cb fs d ms) (memApplyCombinator pun cb fs d set a) (MRes M a0 a (SBlk set) lim) := by
  have hp := Own.potn hf g
  have hcap := h.cap
  cases cb with
  | none => exact nodesWithout_good hf hcap c g (hx rfl) (by omega)
  | adjacent => exact filteredAdjacents_good hf h.linked hcap (some 1) c g (by omega)
  | general => exact filteredAdjacents_good hf h.linked hcap none c g (by omega)
  | child => exact filteredDescendants_good hf hcap h.zero (some 1) c g hl
  | descendant => exact filteredDescendants_good hf hcap h.zero none c g hl

/-! ## The query machine -/

/-- Result of a part of the query machine. -/
inductive QRel (M : Int → Prop) (a0 a : Arena) (N : Int → Prop) (lim : Int) : QRes U16Set → QRes MSet × Arena → Prop
  | fail {st : QStatus} {a' : Arena} : Step M a0 a' → QRel M a0 a N lim (.fail st) (.fail st, a')
  | go {m : U16Set} {s : MSet} {a' : Arena} : MRes M a0 a N lim m (s, a') → QRel M a0 a N lim (.go m) (.go s, a')

theorem queryLoop_good (h : DomI d ch) (s : Str) : ∀ (f idx : Nat) (cb : Combinator) {set : MSet} {ms : U16Set} {a : Arena} {lim : Int},
    Step M a0 a → Own M a0 a set ms → (cb = .none → U16Exact ms) → a.beg + pot set.exp + 2 * (5 * 2 ^ 18) * ((f - 1 : Nat) : Int) ≤ lim →
    Sim a0.stop lim (queryLoop pun s d f idx cb ms) (memQueryLoop pun s d f idx cb set a) (QRel M a0 a (SBlk set) lim) := by
  intro f
  induction f with
  | zero => intro idx cb set ms a lim _ _ _ _ r hr; cases hr
  | succ f ih =>
    intro idx cb set ms a lim c g hx hl
    simp only [Nat.add_sub_cancel] at hl
    unfold queryLoop memQueryLoop
    by_cases hi : idx < s.length
    · rw [if_pos hi, if_pos hi]
      refine Sim.bind Sim.same (fun q b _ _ hk => ?_)
      cases hk
      cases q with
      | fail st => exact Sim.ok (.fail c)
      | go q =>
        obtain ⟨idx, fs⟩ := q
        dsimp only
        refine Sim.bind Sim.same (fun q b _ _ hk => ?_)
        cases hk
        cases q with
        | fail st => exact Sim.ok (.fail c)
        | go q =>
          obtain ⟨idx, fs⟩ := q
          dsimp only
          by_cases hfs : fs.length < 1
          · rw [if_pos hfs, if_pos hfs]
            exact Sim.ok (.fail c)
          · rw [if_neg hfs, if_neg hfs]
            cases f with
            | zero =>
              intro r hr
              rw [Out.bind_eq_ok] at hr
              obtain ⟨m, _, hr⟩ := hr
              cases hr
            | succ f =>
              have hlim : (2 * (5 * 2 ^ 18) : Int) * ((f + 1 : Nat) : Int) = 2 * (5 * 2 ^ 18) * (f : Int) + 2 * (5 * 2 ^ 18) := by push_cast; ring
              rw [hlim] at hl
              refine Sim.bind ((applyCombinator_good hf h cb c g hx (lim := lim - 2 * (5 * 2 ^ 18) * (f : Int)) (by omega)).limit (by omega)) ?_
              rintro m1 ⟨s1, a1⟩ - - h1
              have r1 := h1.room
              dsimp only at r1 ⊢
              refine (ih _ _ h1.step h1.good (fun e => absurd e (combinatorOf_ne _)) (by simp only [Nat.add_sub_cancel]; omega)).post (fun q r _ h2 => ?_)
              cases h2 with
              | fail st => exact .fail st
              | go st => exact .go (h1.trans st)
    · rw [if_neg hi, if_neg hi]
      refine Sim.ok (.go (MRes.refl c g ?_))
      have : (0 : Int) ≤ 2 * (5 * 2 ^ 18) * (f : Int) := by positivity
      omega

theorem union_good {set : MSet} {ms : U16Set} : ∀ (n i : Nat) {a : Arena} {s : MSet} {m : U16Set} {lim : Int}, i + n = 2 ^ set.exp → Step M a0 a →
    Own M a0 a set ms → Sep set s → Own M a0 a s m → a.beg + pot s.exp ≤ lim →
    Sim a0.stop lim (u16InsertAll ((ms.buf.drop i).filter (· ≠ 0)) m) (memUnionLoop set n i s a) (MRes M a0 a (SBlk s) lim) := by
  intro n
  induction n with
  | zero =>
    intro i a s m lim hi c gs _ g hl
    rw [show i = 2 ^ set.exp by omega, gs.holds.done]
    exact Sim.ok (MRes.refl c g hl)
  | succ n ih =>
    intro i a s m lim hi c gs hsep g hl
    obtain ⟨v, e1, e2, e3⟩ := gs.holds.next hi
    rw [e2]
    unfold memUnionLoop
    rw [e1, Out.bind_ok]
    by_cases hv : v ≠ 0
    · rw [if_pos hv, List.filter_cons_of_pos (by simpa using hv)]
      unfold u16InsertAll
      refine Sim.bind (insert_good hf c g e3 (Or.inl hv) hl) ?_
      rintro m1 ⟨s1, a1⟩ - - h1
      obtain ⟨g1, g2⟩ := h1.frame set ms hsep gs
      exact (ih (i + 1) (by omega) h1.step g1 g2 h1.good h1.room).post (fun _ _ _ h => h1.trans h)
    · rw [if_neg hv, List.filter_cons_of_neg (by simpa using hv)]
      exact ih (i + 1) (by omega) c gs hsep g hl

theorem selectLoop_good (h : DomI d ch) (css : Str) : ∀ (f start : Nat) {a : Arena} {set rs : MSet} {ms mr : U16Set} {lim : Int},
    Step M a0 a → Own M a0 a set ms → U16Exact ms → Own M a0 a rs mr → Sep set rs →
    a.beg + pot set.exp + pot rs.exp + 2 * (5 * 2 ^ 18) * ((css.length - start : Nat) : Int) ≤ lim →
    Sim a0.stop lim (selectLoop pun css d f start ms mr) (memSelectLoop pun css d f start set rs a)
      (QRel M a0 a (fun x => SBlk set x ∨ SBlk rs x) lim) := by
  intro f
  induction f with
  | zero => intro start a set rs ms mr lim _ _ _ _ _ _ r hr; cases hr
  | succ f ih =>
    intro start a set rs ms mr lim c gs hx gr hsep hl
    unfold selectLoop memSelectLoop
    have hps := Own.potn hf gs
    have hpr := Own.potn hf gr
    by_cases hi : start < css.length
    · rw [if_pos hi, if_pos hi]
      have hpl : ((css.drop start).takeWhile (· != 44)).length ≤ css.length - start := by
        have := (List.takeWhile_sublist (l := css.drop start) (· != 44)).length_le
        rwa [List.length_drop] at this
      dsimp only
      generalize (css.drop start).takeWhile (· != 44) = part at hpl ⊢
      have hrest : (2 * (5 * 2 ^ 18) : Int) * ((css.length - (start + part.length + 1) : Nat) : Int) + 2 * (5 * 2 ^ 18) * (part.length : Int) ≤
          2 * (5 * 2 ^ 18) * ((css.length - start : Nat) : Int) := by
        rw [← mul_add]
        refine mul_le_mul_of_nonneg_left ?_ (by norm_num)
        omega
      generalize hK : (2 * (5 * 2 ^ 18) : Int) * ((css.length - (start + part.length + 1) : Nat) : Int) = K at hrest
      have hK0 : 0 ≤ K := by rw [← hK]; positivity
      have hP0 : (0 : Int) ≤ 2 * (5 * 2 ^ 18) * (part.length : Int) := by positivity
      refine Sim.bind ((queryLoop_good hf h part (part.length + 1) _ .none c gs (fun _ => hx) (lim := lim - pot rs.exp - K) (by
        simp only [Nat.add_sub_cancel]; omega)).limit (by omega)) ?_
      intro q r hq1 hq2 hq
      clear hq1 hq2
      cases hq with
      | fail st => exact Sim.ok (.fail st)
      | go h1 =>
        rename_i m1 s1 a1
        obtain ⟨gr1, q1⟩ := h1.frame rs mr hsep.symm gr
        have r1 := h1.room
        have g1 := h1.good
        dsimp only at gr1 q1 r1 g1 ⊢
        have hp1 := Own.potn hf g1
        have hu := union_good hf (2 ^ s1.exp) 0 (by omega) h1.step g1 q1.symm gr1 (lim := lim - pot s1.exp - K) (by dsimp only; omega)
        rw [List.drop_zero] at hu
        refine Sim.bind (hu.limit (by omega)) ?_
        rintro mr1 ⟨rs1, a2⟩ - - h2
        obtain ⟨g2, q2⟩ := h2.frame s1 m1 q1.symm g1
        have r2 := h2.room
        have gr2 := h2.good
        dsimp only at g2 q2 r2 gr2 ⊢
        have h3 := reset_good hf h2.step g2 (lim := a2.beg + pot s1.exp) (le_refl _)
        dsimp only at h3
        obtain ⟨gr3, q3⟩ := h3.frame rs1 mr1 q2.symm gr2
        refine (ih (start + part.length + 1) h3.step h3.good g2.holds.ok.reset.2.1 gr3 q2 ?_).post (fun q r _ h4 => ?_)
        · show a2.beg + pot s1.exp + pot rs1.exp + _ ≤ lim
          rw [hK]
          omega
        · cases h4 with
          | fail st => exact .fail st
          | go h4 =>
            refine .go ⟨h4.step, h4.good, h4.room, fun u mu hs gu => ?_⟩
            obtain ⟨k1, k2⟩ := h1.frame u mu (fun x hx hx' => hs x hx (Or.inl hx')) gu
            obtain ⟨k3, k4⟩ := h2.frame u mu (fun x hx hx' => hs x hx (Or.inr hx')) k1
            obtain ⟨k5, k6⟩ := h3.frame u mu k2 k3
            refine h4.frame u mu (fun x hx hx' => ?_) k5
            rcases hx' with h | h
            · exact k2 x hx h
            · exact k4 x hx h
    · rw [if_neg hi, if_neg hi]
      have hz : (0 : Int) ≤ 2 * (5 * 2 ^ 18) * ((css.length - start : Nat) : Int) := by positivity
      refine Sim.ok (.go ⟨c, gr, by dsimp only; omega, fun u mu hs gu => ⟨gu, fun x hx hx' => hs x hx (Or.inr hx')⟩⟩)

end
end Flo
