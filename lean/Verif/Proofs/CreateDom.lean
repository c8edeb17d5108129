import Verif.Proofs.Build
import Verif.Proofs.Walk
/-!
# Summary of what `createDom` and `parseExtra` guarantee
-/
namespace Flo
open Spec

theorem parseRoot_spec (junk : Nat → Out Bool) (s : Str) :
    Post (EQuote s) (fun r =>
      (r.ok = true ∧ ∃ b ch, b.dom = r.dom ∧ BInv [] 1 1 Dom.init (fun _ => []) b ch) ∨
      (r.ok = false ∧ ∃ ch, BNull [] 1 1 Dom.init (fun _ => []) r.dom ch)) (parseRoot junk s Dom.init) := by
  refine (parse_trace (E := EQuote s) (fun h => by simp at h) (fun _ h => h)).mono ?_
  rintro r ⟨evs, h1, h2⟩
  exact BInv.initRoot.run h1 h2

theorem createDom_ok {s : Str} {d : Dom} (h : createDom s = .ok (some d)) :
    ∃ b ch, b.dom = d ∧ BInv [] 1 1 Dom.init (fun _ => []) b ch := by
  simp only [createDom, Out.bind_eq_ok] at h
  obtain ⟨r, hr, e⟩ := h
  have := (parseRoot_spec _ s).elim hr
  rcases this with ⟨h1, b, ch, h2, h3⟩ | ⟨h1, _⟩
  · rw [h1] at e; cases e; exact ⟨b, ch, h2, h3⟩
  · rw [h1] at e; cases e

theorem createDom_null {s : Str} (h : createDom s = .ok none) :
    ∃ d ch, parseRoot (fun _ => .ub .oobIndex) s Dom.init = .ok ⟨false, d⟩ ∧
      BNull [] 1 1 Dom.init (fun _ => []) d ch := by
  simp only [createDom, Out.bind_eq_ok] at h
  obtain ⟨r, hr, e⟩ := h
  have := (parseRoot_spec _ s).elim hr
  rcases this with ⟨h1, b, ch, h2, h3⟩ | ⟨h1, ch, h2⟩
  · rw [h1] at e; cases e
  · refine ⟨r.dom, ch, ?_, h2⟩
    rw [hr, ← h1]

theorem createDom_post (s : Str) : Post (EQuote s) (fun _ => True) (createDom s) := by
  unfold createDom
  exact (parseRoot_spec _ s).bindP (fun _ _ => trivial)

theorem parseExtra_spec {E : Why → Prop} {junk : Nat → Out Bool} {s : Str} {d : Dom} {ch : Nat → List Nat}
    (hl : LinkedD d ch) (hn : NamesOK d) (hj : ∀ i, Post E (fun _ => True) (junk i))
    (hE : ∀ w, EQuote s w → E w) :
    Post E (fun r =>
      (r.ok = true ∧ ∃ b ch', b.dom = r.dom ∧ BInv [0] 0 0 d (upd ch 0 []) b ch') ∨
      (r.ok = false ∧ ∃ ch', BNull [0] 0 0 d (upd ch 0 []) r.dom ch')) (parseExtra junk s d) := by
  refine (parse_trace (E := E) (fun _ => hj) hE).mono ?_
  rintro r ⟨evs, h1, h2⟩
  exact (BInv.initExtra hl hn).run h1 h2

theorem depth_iff {d : Dom} {ch : Nat → List Nat} (h : LinkedD d ch) {n k : Nat} :
    Depth d n k ↔ DepC ch 1 n k := by
  constructor
  · intro hd
    induction hd with
    | root => exact .base
    | child _ hc ih => exact .child ih (h.mem_kids hc).2
  · intro hd
    induction hd with
    | base => exact .root
    | child hp hc ih =>
      refine .child ih ?_
      rw [h.kids_eq]
      · exact hc
      · rename_i p c k
        cases hp with
        | base => omega
        | child _ hc' => exact h.pos hc'

end Flo
