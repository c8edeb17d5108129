import Verif.Proofs.DomMemBound
/-!
# `flo_html_createDom` in memory
-/
namespace Flo
open Spec

/-- The DOM before anything is pushed. -/
def Dom.blank : Dom := ⟨[], [], [], [], [], [], [], [], [], [], .empty, .empty, .empty, .empty⟩

/-- The memory an arena leaves free, with everything around it: what is in `K` may be pointed to. -/
def Arena.env (a : Arena) (K : Int → Prop) : MEnv :=
  ⟨a.beg, a.stop, a.mem, fun y => K y ∧ (y < a.beg ∨ a.stop ≤ y), fun y => ¬K y ∧ (y < a.beg ∨ a.stop ≤ y), a.beg, a.beg⟩

open Classical in
/-- The owners before anything is pushed: `a` before and `a'` after the allocation of the structure. -/
noncomputable def Arena.owners (a a' : Arena) (K : Int → Prop) : Int → Owner := fun y =>
  if a'.beg ≤ y ∧ y < a'.stop then .free else if ¬K y ∧ (y < a.beg ∨ a.stop ≤ y) then .other else .fixed

theorem isAlign_2 : IsAlign 2 := ⟨1, by omega, rfl⟩

theorem kind_4 : Kind.OK ⟨4, 2⟩ := ⟨by decide, isAlign_2, by decide⟩
theorem kind_6 : Kind.OK ⟨6, 2⟩ := ⟨by decide, isAlign_2, by decide⟩

theorem mapRep_empty {own : Int → Owner} {j : Nat} {mem : Int → UInt8} : MapRep own j mem ⟨0, 0⟩ .empty :=
  ⟨rfl, by decide, by decide, rfl⟩

theorem rep_blank {a a' : Arena} {p : Int} (K : Int → Prop) (h0 : 0 < a.beg) (hm : a.stop < 2 ^ 62)
    (h : Alloced 304 8 1 true a p a') : Rep (a.env K) (a.owners a' K) 0 .zero a' .blank where
  pos := h0
  lo := by have := h.above; have := h.beg; show a.beg ≤ _; omega
  above := by have := h.above; have := h.beg; show a.beg ≤ _; omega
  top := by have := h.fits (by omega); have := h.beg; have := h.stop; omega
  stop := h.stop
  max := hm
  free := fun y h1 h2 => if_pos ⟨h1, h2⟩
  out := by
    intro y hy
    have h1 := h.above; have h2 := h.beg; have h3 := h.fits (by omega); have h4 := h.stop
    obtain ⟨hk, hy⟩ : K y ∧ (y < a.beg ∨ a.stop ≤ y) := hy
    refine ⟨?_, ?_⟩
    · unfold Arena.owners
      rw [if_neg (by omega), if_neg (fun hc => hc.1 hk)]
    · rcases hy with hy | hy
      · exact h.below y (by omega)
      · exact h.outside y (by omega)
  oth := by
    intro y hy
    have h1 := h.above; have h2 := h.beg; have h3 := h.fits (by omega); have h4 := h.stop
    obtain ⟨hk, hy⟩ : ¬K y ∧ (y < a.beg ∨ a.stop ≤ y) := hy
    refine ⟨?_, ?_⟩
    · unfold Arena.owners
      rw [if_neg (by omega), if_pos ⟨hk, hy⟩]
    · rcases hy with hy | hy
      · exact h.below y (by omega)
      · exact h.outside y (by omega)
  nodes := arrRep_empty kind_24
  fc := arrRep_empty kind_4
  pc := arrRep_empty kind_4
  nn := arrRep_empty kind_4
  boolProps := arrRep_empty kind_4
  props := arrRep_empty kind_6
  tagReg := arrRep_empty kind_24
  boolReg := arrRep_empty kind_16
  keyReg := arrRep_empty kind_16
  valReg := arrRep_empty kind_16
  tagMap := mapRep_empty
  boolMap := mapRep_empty
  keyMap := mapRep_empty
  valMap := mapRep_empty
  few := by decide
  led := by
    have := h.close; have := h.beg
    have e : MDom.ledger .zero = 312 := by decide
    have e2 : Dom.textLen .blank = 0 := rfl
    rw [e, e2]
    show _ ≤ a.beg + _ + _ + _
    omega

theorem PushRuns.then {V : MEnv} {y : Out (MDom × Arena)} {g : MDom × Arena → Out (MDom × Arena)} {d1 d2 : Dom}
    (h : PushRuns V 0 (d1.bytes + 0) y d1) (hb : d1.bytes ≤ d2.bytes)
    (hg : ∀ M a own, Rep V own 0 M a d1 → PushRuns V 0 (d2.bytes + 0) (g (M, a)) d2) : PushRuns V 0 (d2.bytes + 0) (y >>= g) d2 := by
  rcases h with ⟨h1, h2⟩ | ⟨M, a, own, h1, h2⟩
  · left; rw [h1]; exact ⟨rfl, by omega⟩
  · rw [h1, Out.bind_ok]; exact hg M a own h2

theorem memInitDom_runs {a : Arena} (K : Int → Prop) (h0 : 0 < a.beg) (hm : a.stop < 2 ^ 62) : PushRuns (a.env K) 0 (Dom.init.bytes + 0) (memInitDom a) Dom.init := by
  unfold memInitDom
  rcases arenaAlloc_cases (size := 304) (align := 8) (count := 1) (zero := true) (nof := false) (a := a) (by omega) isAlign_8 (by omega) with
    ⟨p, a', he, hA⟩ | ⟨hlt, he⟩
  · rw [he, Out.bind_ok]
    dsimp only
    refine ((rep_blank K h0 hm hA).addNodes (t := .error) rfl (by decide)).then (by decide) fun M a1 own h => ?_
    refine (h.addNodes (t := .root) rfl (by decide)).then (by decide) fun M a1 own h => ?_
    refine (h.addTagReg (p := false) tok_empty).then (by decide) fun M a1 own h => ?_
    refine (h.addBoolReg tok_empty).then (by decide) fun M a1 own h => ?_
    refine (h.addKeyReg tok_empty).then (by decide) fun M a1 own h => ?_
    exact h.addValReg tok_empty
  · left
    rw [he, if_neg (by decide)]
    refine ⟨rfl, ?_⟩
    have := Int.emod_lt_of_pos (-a.beg) (show (0 : Int) < 8 by omega)
    have e : Dom.init.bytes = 840 := by decide
    rw [e]
    show a.stop < a.beg + _
    omega

/-- What `flo_html_createDom` returns, and where. -/
inductive CreateR (V : MEnv) (n : Int) : Option Dom → Option MDom × Arena → Prop
  | null {d : Dom} {M : MDom} {a : Arena} (h : DomR V d (M, a)) (hb : d.bytes ≤ n) : CreateR V n none (none, a)
  | dom {d : Dom} {M : MDom} {a : Arena} (h : DomR V d (M, a)) (hb : d.bytes ≤ n) : CreateR V n (some d) (some M, a)

theorem createDom_sim {a : Arena} {K : Int → Prop} (h0 : 0 < a.beg) (hm : a.stop < 2 ^ 62) {src : MStr} {s : Str} (hs : Tok (a.env K) src s) :
    SimC (a.env K) (fun _ => 840 + 320 * (s.length : Int)) (createDom s) (memCreateDom src a) (CreateR (a.env K) (840 + 320 * (s.length : Int))) := by
  have e : Dom.init.bytes = 840 := by decide
  have h1 := (memInitDom_runs K h0 hm).sim
  have h2 : SimC (a.env K) (fun r : ParseRes => 840 + 320 * (s.length : Int)) (parseRoot (fun _ => .ub .oobIndex) s Dom.init)
      (memInitDom a >>= fun q => memParse (fun _ => .ub .oobIndex) src q.1 q.2 rootID [(rootID, .empty)])
      (fun r q => q.ok = r.ok ∧ DomR (a.env K) r.dom (q.dom, q.arena)) := by
    have := h1.bind (L2 := fun r : ParseRes => 840 + 320 * (s.length : Int)) (f := fun d => parseRoot (fun _ => .ub .oobIndex) s d)
      (g := fun q => memParse (fun _ => .ub .oobIndex) src q.1 q.2 rootID [(rootID, .empty)])
      (R2 := fun r q => q.ok = r.ok ∧ DomR (a.env K) r.dom (q.dom, q.arena))
      (fun d hd r hr => by cases hd; rw [e]; omega)
      (fun d q hd hR => by
        cases hd
        obtain ⟨own, hR⟩ := hR
        refine (parse_sim hs _ hR (by decide) (.cons (by decide) tok_empty .nil)).mono (fun r hr => ?_) (fun r q _ h => h)
        have := parse_cost (junk := fun _ => .ub .oobIndex) (by simp) s Dom.init rootID [(rootID, [])] r hr
        rw [e] at this
        omega)
    exact this
  have h3 := h2.bind (L2 := fun _ => 840 + 320 * (s.length : Int))
    (f := fun r : ParseRes => .ok (if r.ok then some r.dom else none))
    (g := fun r : MParseRes => .ok (if r.ok then some r.dom else none, r.arena)) (R2 := CreateR (a.env K) (840 + 320 * (s.length : Int)))
    (fun _ _ _ _ => le_refl _) (fun r q hr hR => by
      have hb := parse_cost (junk := fun _ => .ub .oobIndex) (by simp) s Dom.init rootID [(rootID, [])] r hr
      rw [e] at hb
      obtain ⟨rok, rd⟩ := r
      obtain ⟨qok, qd, qa⟩ := q
      obtain ⟨h4, h5⟩ := hR
      dsimp only at h4 h5
      subst h4
      cases qok
      · exact SimC.okR (.null h5 hb)
      · exact SimC.okR (.dom h5 hb))
  unfold createDom memCreateDom
  have e3 : (memInitDom a >>= fun q => memParse (fun _ => .ub .oobIndex) src q.1 q.2 rootID [(rootID, .empty)]) >>=
      (fun r : MParseRes => (.ok (if r.ok then some r.dom else none, r.arena) : Out (Option MDom × Arena))) =
      (do
        let (M, a) ← memInitDom a
        let r ← memParse (fun _ => .ub .oobIndex) src M a rootID [(rootID, .empty)]
        .ok (if r.ok then some r.dom else none, r.arena)) := by
    cases memInitDom a <;> rfl
  rw [e3] at h3
  exact h3

end Flo
