import Verif.Proofs.Trace
import Verif.Proofs.Nav
/-!
# The parser's link updates keep the DOM linked and numbered in document order
-/
namespace Flo
open Spec

/-! ## Preorder over a child-list function -/

def preC (ch : Nat → List Nat) : Nat → Nat → List Nat
  | 0, _ => []
  | f + 1, p => p :: (ch p).flatMap (preC ch f)

/-- Child lists go up and stay below `N`. -/
def Up (N : Nat) (ch : Nat → List Nat) : Prop := ∀ p c, c ∈ ch p → p < c ∧ c < N

theorem Linked.up {N fc pc nn ch} (h : Linked N fc pc nn ch) : Up N ch :=
  fun p c hc => ⟨(h.range p c hc).1, (h.range p c hc).2.2⟩

theorem preC_stable {N : Nat} {ch : Nat → List Nat} (hu : Up N ch) :
    ∀ f p g, p < N → N - p ≤ f → N - p ≤ g → preC ch f p = preC ch g p := by
  intro f
  induction f with
  | zero => intro p g hp hf; omega
  | succ f ih =>
    intro p g hp hf hg
    obtain ⟨g, rfl⟩ : ∃ g', g = g' + 1 := ⟨g - 1, by omega⟩
    rw [preC, preC]
    congr 1
    have : ∀ c ∈ ch p, preC ch f c = preC ch g c := by
      intro c hc
      have := hu p c hc
      exact ih c g this.2 (by omega) (by omega)
    rw [List.flatMap_def, List.flatMap_def, List.map_congr_left this]

/-- Preorder of the subtree of `p` in a forest with node identifiers below `N`. -/
def pre (N : Nat) (ch : Nat → List Nat) (p : Nat) : List Nat := preC ch (N - p) p

theorem pre_eq {N : Nat} {ch : Nat → List Nat} (hu : Up N ch) {p : Nat} (hp : p < N) :
    pre N ch p = p :: (ch p).flatMap (pre N ch) := by
  unfold pre
  obtain ⟨f, hf⟩ : ∃ f, N - p = f + 1 := ⟨N - p - 1, by omega⟩
  rw [hf, preC]
  congr 1
  have : ∀ c ∈ ch p, preC ch f c = preC ch (N - c) c := by
    intro c hc
    have := hu p c hc
    exact preC_stable hu f c (N - c) this.2 (by omega) (by omega)
  rw [List.flatMap_def, List.flatMap_def, List.map_congr_left this]

theorem pre_mono {N M : Nat} {ch : Nat → List Nat} (hu : Up N ch) (hNM : N ≤ M) {p : Nat} (hp : p < N) :
    pre M ch p = pre N ch p := preC_stable hu _ p _ hp (by omega) (by omega)

theorem mem_pre_self {N : Nat} {ch : Nat → List Nat} {p : Nat} (hp : p < N) : p ∈ pre N ch p := by
  unfold pre
  obtain ⟨f, hf⟩ : ∃ f, N - p = f + 1 := ⟨N - p - 1, by omega⟩
  rw [hf, preC]; simp

/-- Induction on nodes from larger to smaller identifiers. -/
theorem down_induction {N : Nat} {P : Nat → Prop} (h : ∀ p, p < N → (∀ c, p < c → c < N → P c) → P p) :
    ∀ p, p < N → P p := by
  have : ∀ k p, N - p ≤ k → p < N → P p := by
    intro k
    induction k with
    | zero => intro p h1 h2; omega
    | succ k ih =>
      intro p h1 h2
      exact h p h2 (fun c hc1 hc2 => ih c (by omega) hc2)
  exact fun p hp => this N p (by omega) hp

theorem pre_ge {N : Nat} {ch : Nat → List Nat} (hu : Up N ch) :
    ∀ p, p < N → ∀ x ∈ pre N ch p, p ≤ x ∧ x < N := by
  refine down_induction ?_
  intro p hp ih x hx
  rw [pre_eq hu hp, List.mem_cons, List.mem_flatMap] at hx
  rcases hx with rfl | ⟨c, hc, hx⟩
  · omega
  · have := hu p c hc
    have := ih c this.1 this.2 x hx
    omega

/-- Updating the list of a node outside a subtree does not change its preorder. -/
theorem pre_upd_out {N : Nat} {ch : Nat → List Nat} (hu : Up N ch) {q : Nat} {L : List Nat}
    (hu' : Up N (upd ch q L)) : ∀ p, p < N → q ∉ pre N ch p → pre N (upd ch q L) p = pre N ch p := by
  refine down_induction ?_
  intro p hp ih hq
  rw [pre_eq hu hp, List.mem_cons, List.mem_flatMap] at hq
  rw [pre_eq hu hp, pre_eq hu' hp]
  have hpq : p ≠ q := fun e => hq (Or.inl e.symm)
  rw [upd_ne hpq]
  congr 1
  rw [List.flatMap_def, List.flatMap_def]
  congr 1
  apply List.map_congr_left
  intro c hc
  have := hu p c hc
  exact ih c this.1 this.2 (fun hx => hq (Or.inr ⟨c, hc, hx⟩))

/-- The rightmost path: a list of nodes (innermost first), each the last child of the next one. -/
def RPath (ch : Nat → List Nat) : List Nat → Prop
  | a :: b :: l => (ch b).getLast? = some a ∧ RPath ch (b :: l)
  | _ => True

theorem flatMap_append_singleton {α β : Type} (l : List α) (x : α) (f : α → List β) :
    (l ++ [x]).flatMap f = l.flatMap f ++ f x := by simp

/-- A leaf added behind the last child of the innermost node of the rightmost path comes last in preorder. -/
theorem pre_rpath {N : Nat} {ch : Nat → List Nat} (hu : Up N ch) {s0 : Nat}
    (hu' : Up (N + 1) (upd ch s0 (ch s0 ++ [N]))) (hN : ch N = []) :
    ∀ (l : List Nat) (x : Nat), RPath ch (x :: l) → (∀ y ∈ x :: l, y < N) →
      s0 ∈ pre N ch x → pre (N + 1) (upd ch s0 (ch s0 ++ [N])) x = pre N ch x ++ [N] →
      ∀ base, (x :: l).getLast? = some base → (pre N ch base).Nodup →
      pre (N + 1) (upd ch s0 (ch s0 ++ [N])) base = pre N ch base ++ [N] := by
  intro l
  induction l with
  | nil =>
    intro x _ _ _ h base hb _
    simp at hb; subst hb; exact h
  | cons y l ih =>
    intro x hr hlt hs0 hx base hb hnd
    obtain ⟨hlast, hr⟩ := hr
    rw [List.getLast?_cons_cons] at hb
    have hxN : x < N := hlt x (by simp)
    have hyN : y < N := hlt y (by simp)
    have hxy : y < x := (hu y x (List.mem_of_mem_getLast? hlast)).1
    obtain ⟨m, hm⟩ : ∃ m, ch y = m ++ [x] := by
      rw [List.getLast?_eq_some_iff] at hlast; exact hlast
    have hpy : pre N ch y = (y :: m.flatMap (pre N ch)) ++ pre N ch x := by
      rw [pre_eq hu hyN, hm, flatMap_append_singleton]; rfl
    have hu1 : Up (N + 1) ch := fun p c hc => ⟨(hu p c hc).1, by have := (hu p c hc).2; omega⟩
    refine ih y hr (fun z hz => hlt z (by simp at hz ⊢; tauto)) (by rw [hpy]; simp [hs0]) ?_ base hb hnd
    -- the preorder of y is a sublist of the one of base, hence without duplicates
    have hsubl : ∀ (l : List Nat) (y : Nat), RPath ch (y :: l) → (∀ z ∈ y :: l, z < N) →
        ∀ base, (y :: l).getLast? = some base → (pre N ch y).Sublist (pre N ch base) := by
      intro l
      induction l with
      | nil => intro y _ _ base hb; simp at hb; subst hb; exact List.Sublist.refl _
      | cons z l ih2 =>
        intro y hr hlt base hb
        obtain ⟨hlast, hr⟩ := hr
        rw [List.getLast?_cons_cons] at hb
        refine List.Sublist.trans ?_ (ih2 z hr (fun w hw => hlt w (by simp at hw ⊢; tauto)) base hb)
        rw [pre_eq hu (hlt z (by simp))]
        obtain ⟨m, hm⟩ : ∃ m, ch z = m ++ [y] := by
          rw [List.getLast?_eq_some_iff] at hlast; exact hlast
        rw [hm, flatMap_append_singleton]
        exact (List.sublist_append_right _ _).trans (List.sublist_cons_self _ _)
    have hndy : (pre N ch y).Nodup :=
      hnd.sublist (hsubl l y hr (fun z hz => hlt z (by simp at hz ⊢; tauto)) base hb)
    rw [hpy, List.nodup_append] at hndy
    have hnot : ∀ c ∈ m, s0 ∉ pre N ch c := by
      intro c hc hin
      exact hndy.2.2 s0 (by
        rw [List.mem_cons, List.mem_flatMap]; exact Or.inr ⟨c, hc, hin⟩) s0 hs0 rfl
    have hys0 : y ≠ s0 := by
      rintro rfl
      exact hndy.2.2 y (by simp) y hs0 rfl
    rw [pre_eq hu' (by omega), upd_ne hys0, hm, flatMap_append_singleton, hx, hpy]
    have hms : m.flatMap (pre (N + 1) (upd ch s0 (ch s0 ++ [N]))) = m.flatMap (pre N ch) := by
      rw [List.flatMap_def, List.flatMap_def]
      congr 1
      apply List.map_congr_left
      intro c hc
      have hcN := (hu y c (by rw [hm]; simp [hc])).2
      have e1 : pre (N + 1) ch c = pre N ch c := pre_mono hu (by omega) hcN
      rw [pre_upd_out hu1 hu' c (by omega) (by rw [e1]; exact hnot c hc), e1]
    rw [hms]; simp

/-- Same, for the innermost node itself. -/
theorem pre_rpath_base {N : Nat} {ch : Nat → List Nat} (hu : Up N ch) {s0 : Nat} (hs : s0 < N)
    (hu' : Up (N + 1) (upd ch s0 (ch s0 ++ [N]))) (hN : ch N = []) :
    pre (N + 1) (upd ch s0 (ch s0 ++ [N])) s0 = pre N ch s0 ++ [N] := by
  have hu1 : Up (N + 1) ch := fun p c hc => ⟨(hu p c hc).1, by have := (hu p c hc).2; omega⟩
  rw [pre_eq hu' (by omega), upd_same, flatMap_append_singleton, pre_eq hu hs]
  have hpn : pre (N + 1) (upd ch s0 (ch s0 ++ [N])) N = [N] := by
    rw [pre_eq hu' (by omega), upd_ne (by omega), hN]; simp
  have hms : (ch s0).flatMap (pre (N + 1) (upd ch s0 (ch s0 ++ [N]))) = (ch s0).flatMap (pre N ch) := by
    rw [List.flatMap_def, List.flatMap_def]
    congr 1
    apply List.map_congr_left
    intro c hc
    have hcN := hu s0 c hc
    have e1 : pre (N + 1) ch c = pre N ch c := pre_mono hu (by omega) hcN.2
    rw [pre_upd_out hu1 hu' c (by omega) (fun hx => by
      have := pre_ge hu1 c (by omega) s0 hx; omega), e1]
  rw [hms, hpn]; simp

end Flo
