import Verif.Proofs.DomMemRead
import Verif.Props.Room
import Verif.Props.Parse
/-!
# C83, C84: parsing in the arena's memory
-/
namespace Flo
open Spec

/-- C83: parsing a source text that lies outside the free part of the arena either jumps for lack of memory or returns what
`createDom` returns: NULL for NULL, and for a DOM a structure whose tables, read from memory, are the DOM's.  Only free memory is
written and the arena's end stays.  The structure is still good whatever is written later to the memory that is free afterwards. -/
theorem C83_parse_in_memory (a : Arena) (ha : ArenaOK a) (h0 : 0 < a.beg) (src : MStr) (s : Str) (hs : SourceAt a src s)
    (r : Option Dom) (hr : createDom s = .ok r) :
    memCreateDom src a = .longjmp ∨ ∃ q a', memCreateDom src a = .ok (q, a') ∧ a.beg ≤ a'.beg ∧ a'.beg ≤ a'.stop ∧ a'.stop = a.stop ∧
      SameButFree a a.mem a'.mem ∧ (q = none ↔ r = none) ∧
      ∀ M d, q = some M → r = some d → ∀ mem', SameButFree a' a'.mem mem' → InMemory mem' M d := by
  rcases (createDom_sim h0 ha.2.2 (hs.tok (K := fun _ => True) fun _ _ _ => trivial)).ok r hr with ⟨h, _⟩ | ⟨⟨q, a'⟩, h, hR⟩
  · exact Or.inl h
  · right
    refine ⟨q, a', h, ?_⟩
    cases hR with
    | null h hb =>
      obtain ⟨own, h⟩ := h
      exact ⟨h.lo, h.top, h.stop, fun y hy => (h.out y ⟨trivial, hy⟩).2, by simp, fun M d e => by cases e⟩
    | dom h hb =>
      obtain ⟨own, h⟩ := h
      refine ⟨h.lo, h.top, h.stop, fun y hy => (h.out y ⟨trivial, hy⟩).2, by simp, fun M d e1 e2 mem' hm => ?_⟩
      cases e1; cases e2
      exact (h.rewrite hm).inMemory

/-- C83: where `createDom` runs out of identifiers, parsing in memory jumps too. -/
theorem C83_jump_in_memory (a : Arena) (ha : ArenaOK a) (h0 : 0 < a.beg) (src : MStr) (s : Str) (hs : SourceAt a src s)
    (hr : createDom s = .longjmp) : memCreateDom src a = .longjmp := (createDom_sim h0 ha.2.2 (hs.tok (K := fun _ => True) fun _ _ _ => trivial)).jump hr

/-- C84: 840 bytes and 320 for each byte of the source are enough memory, and no more is taken. -/
theorem C84_memory_is_linear (a : Arena) (ha : ArenaOK a) (h0 : 0 < a.beg) (src : MStr) (s : Str) (hs : SourceAt a src s)
    (r : Option Dom) (hr : createDom s = .ok r) :
    (840 + 320 * (s.length : Int) ≤ a.stop - a.beg → memCreateDom src a ≠ .longjmp) ∧
    ∀ q a', memCreateDom src a = .ok (q, a') → a'.beg - a.beg ≤ 840 + 320 * (s.length : Int) := by
  rcases (createDom_sim h0 ha.2.2 (hs.tok (K := fun _ => True) fun _ _ _ => trivial)).ok r hr with ⟨h, hl⟩ | ⟨⟨q, a'⟩, h, hR⟩
  · refine ⟨fun hroom => ?_, fun q a' e => by rw [h] at e; cases e⟩
    change a.stop < a.beg + _ at hl
    omega
  · refine ⟨fun _ e => (by rw [h] at e; cases e), fun q2 a2 e => ?_⟩
    rw [h] at e
    cases e
    have key : ∀ d M, DomR (a.env fun _ => True) d (M, a') → d.bytes ≤ 840 + 320 * (s.length : Int) → a'.beg - a.beg ≤ 840 + 320 * (s.length : Int) := by
      rintro d M ⟨own, h⟩ hb
      have h1 := h.led
      have h2 := h.bytes
      change _ ≤ a.beg + _ + _ + _ at h1
      change a.beg + _ + _ + _ ≤ a.beg + _ + _ at h2
      dsimp only at h1 h2
      omega
    cases hR with
    | null h hb => exact key _ _ h hb
    | dom h hb => exact key _ _ h hb

/-- C84: a source of at most 65533 bytes that does not end in a quote is parsed in an arena of that size. -/
theorem C84_parse_succeeds (a : Arena) (ha : ArenaOK a) (h0 : 0 < a.beg) (src : MStr) (s : Str) (hs : SourceAt a src s)
    (hn : s.length ≤ 65533) (hq : s.getLast? ≠ some 34 ∧ s.getLast? ≠ some 39) (hroom : 840 + 320 * (s.length : Int) ≤ a.stop - a.beg) :
    ∃ r q a', createDom s = .ok r ∧ memCreateDom src a = .ok (q, a') ∧ (q = none ↔ r = none) ∧
      ∀ M d, q = some M → r = some d → InMemory a'.mem M d := by
  cases hr : createDom s with
  | hang => exact absurd hr (C01_createDom_terminates s)
  | ub w => exact absurd hr (C02_no_ub_partial s hq w)
  | longjmp => exact absurd hr (createDom_nj hn)
  | ok r =>
    rcases C83_parse_in_memory a ha h0 src s hs r hr with h | ⟨q, a', h1, h2, h3, h4, h5, h6, h7⟩
    · exact absurd h ((C84_memory_is_linear a ha h0 src s hs r hr).1 hroom)
    · exact ⟨r, q, a', rfl, h1, h6, fun M d e1 e2 => h7 M d e1 e2 _ fun y _ => rfl⟩

/-! ## An example -/

/-- A source text at 1000, followed by an arena with free memory from 2001 on, full of 7s. -/
def parseArena (n : Int) : Arena := { beg := 2001, stop := 2001 + n, mem := memWrite 1000 b!"<p a=b c>x  y<i/></p>" fun _ => 7 }

def parseSrc : MStr := ⟨1000, 21⟩

theorem parseSrc_at (n : Int) : SourceAt (parseArena n) parseSrc b!"<p a=b c>x  y<i/></p>" :=
  ⟨show bytesFrom (memWrite 1000 b!"<p a=b c>x  y<i/></p>" fun _ => 7) 1000 21 = _ by decide +kernel, by decide, by decide, Or.inr (Or.inl (by show (1000 : Int) + (21 : Nat) ≤ 2001; omega))⟩

example : ArenaOK (parseArena 8000) ∧ 840 + 320 * ((b!"<p a=b c>x  y<i/></p>").length : Int) ≤ (parseArena 8000).stop - (parseArena 8000).beg := by
  refine ⟨⟨?_, ?_, ?_⟩, ?_⟩ <;> simp [parseArena]

set_option maxRecDepth 8000 in
/-- The tables in memory; the same parse in an arena of 1200 bytes jumps. -/
example : okAnd (memCreateDom parseSrc (parseArena 8000)) (fun r =>
      match r.1 with
      | none => false
      | some M => decide (M.nodes.len = 5 ∧ (entries M.tagReg 24).map (tagAt r.2.mem) = [([], false), (b!"p", true), (b!"i", false)]))
    = true ∧ jumps (memCreateDom parseSrc (parseArena 1200)) = true := by
  decide +kernel

set_option maxRecDepth 8000 in
/-- Texts are copied, names are not: with the source overwritten, the text is still there, the tag name is gone. -/
example : okAnd (memCreateDom parseSrc (parseArena 8000)) (fun r =>
      match r.1 with
      | none => false
      | some M =>
        let mem := memWrite 1000 (List.replicate 21 0) r.2.mem
        decide (stringAt mem (entryAddr M.nodes 24 3 + 8) = b!"x y" ∧ stringAt mem (entryAddr M.tagReg 24 1) = [0])) = true := by
  decide +kernel

end Flo
