import Verif.Spec.MemSession
import Verif.Props.PageValue
import Verif.Props.EditMem
/-!
# A whole session in memory is a session on the page (C105)

The program's strings lie outside of the arena.  Everything the library does happens in the arena: the tables there are at the end
the ones of a DOM that shows the page, and the calls have returned what the pages say.
-/
namespace Flo
open Spec

theorem str_congr {mem mem' : Int → UInt8} {r : MStr} (h : ∀ y, r.ptr ≤ y → y < r.ptr + r.len → mem' y = mem y) : str mem' r = str mem r := by
  unfold str bytesFrom
  refine List.map_congr_left fun i hi => h _ (by omega) ?_
  have := List.mem_range.1 hi
  omega

/-- A call whose strings have not been written to is the same call. -/
theorem read_congr {U : Int → Prop} {mem mem' : Int → UInt8} {op : MOp} (ho : op.Given U) (h : ∀ y, U y → mem' y = mem y) :
    op.read mem' = op.read mem := by
  have hs : ∀ s ∈ op.strings, str mem' s = str mem s := fun s hs => str_congr fun y h1 h2 => h y (ho.mine s hs y h1 h2)
  have hd : ∀ r : MDocNode, (∀ s ∈ docStrings r, str mem' s = str mem s) → docNode mem' r = docNode mem r := by
    intro r hr
    unfold docNode
    rw [hr r.tag (by simp [docStrings]), List.map_congr_left (fun b hb => hr b (by simp [docStrings, hb]))]
    congr 1
    refine List.map_congr_left fun x hx => ?_
    have h1 : x.1 ∈ docStrings r := by
      simp only [docStrings, List.mem_cons, List.mem_append, List.mem_map]; exact Or.inr (Or.inr (Or.inl ⟨x, hx, rfl⟩))
    have h2 : x.2 ∈ docStrings r := by
      simp only [docStrings, List.mem_cons, List.mem_append, List.mem_map]; exact Or.inr (Or.inr (Or.inr ⟨x, hx, rfl⟩))
    rw [hr _ h1, hr _ h2]
  cases op <;> simp only [MOp.strings, List.mem_cons, List.not_mem_nil, or_false, forall_eq_or_imp, forall_eq, false_imp_iff, implies_true] at hs <;>
    first
    | rfl
    | simp only [MOp.read, hd _ hs]
    | simp only [MOp.read, hs]

theorem memEach_shows (U : Int → Prop) (ops : List (MOp × (Nat → Bool))) : ∀ (M : MDom) (a : Arena) (d : Dom) (_ : Held U M a d)
    (_ : Reachable d) (pg : Page) (_ : Shows d pg) (_ : ∀ o ∈ ops, o.1.Given U) (_ : pg.AllowsAll (readAll a.mem ops))
    (_ : Room d ((readAll a.mem ops).map fun o => o.1.cost).sum),
    memEach ops M a = .longjmp ∨ ∃ vs M' a' d', memEach ops M a = .ok (vs, M', a') ∧ callEach (readAll a.mem ops) d = .ok (vs, d') ∧
      Held U M' a' d' ∧ Reachable d' ∧ Shows d' (pg.run (readAll a.mem ops)) ∧ GivesAll pg (readAll a.mem ops) vs ∧
      a.beg ≤ a'.beg ∧ a'.stop = a.stop ∧ ∀ y, U y → a'.mem y = a.mem y := by
  induction ops with
  | nil => intro M a d h hR pg hs _ _ _; exact Or.inr ⟨[], M, a, d, rfl, rfl, h, hR, hs, rfl, le_refl _, rfl, fun _ _ => rfl⟩
  | cons o ops ih =>
    intro M a d h hR pg hs hg ha hr
    have hro : readAll a.mem (o :: ops) = (o.1.read a.mem, o.2) :: readAll a.mem ops := rfl
    rw [hro] at ha hr ⊢
    rw [List.map_cons, List.sum_cons] at hr
    obtain ⟨v, d1, e1, h1, s1, g1, r1⟩ := C104_value d hR pg hs o.2 (o.1.read a.mem) ha.1 (hr.le (by dsimp only; omega))
    have hj : Reads fun i => Out.ok (o.2 i) := fun i => ⟨_, rfl⟩
    rcases h.call (hg o (by simp)) hj e1 with ⟨x, _⟩ | ⟨M1, a1, x, hh, b1, b2, _, b3⟩
    · left; rw [memEach, x]; rfl
    · have hsame : readAll a1.mem ops = readAll a.mem ops :=
        List.map_congr_left fun o' ho' => by rw [read_congr (hg o' (by simp [ho'])) b3]
      have := ih M1 a1 d1 hh h1 _ s1 (fun o' ho' => hg o' (by simp [ho'])) (by rw [hsame]; exact ha.2) (by rw [hsame]; exact r1 _ hr)
      rw [hsame] at this
      rcases this with y | ⟨vs, M2, a2, d2, y, z, hh2, h2, s2, g2, c1, c2, c3⟩
      · left; rw [memEach, x]; show (memEach ops M1 a1 >>= _) = _; rw [y]; rfl
      · right
        refine ⟨v :: vs, M2, a2, d2, ?_, ?_, hh2, h2, s2, ⟨v, vs, rfl, g1, g2⟩, le_trans b1 c1, c2.trans b2, fun w hw => (c3 w hw).trans (b3 w hw)⟩
        · rw [memEach, x]; show (memEach ops M1 a1 >>= _) = _; rw [y]; rfl
        · rw [callEach, e1]; show (callEach _ d1 >>= _) = _; rw [z]; rfl

/-- A source and the strings of any calls that are in order on the page lie outside of an arena.  The session in memory either runs
out of memory and jumps, or every call succeeds: the tables in memory are those of a DOM that is the page and prints as it, the
values are the ones the pages say, and no byte outside of the arena has changed. -/
theorem C105_session (a : Arena) (ha : ArenaOK a) (h0 : 0 < a.beg) (src : MStr) (s : Str) (hs : SourceAt a src s) (ts : List Tree)
    (ho : outcome s = .document ts) (ops : List (MOp × (Nat → Bool))) (hg : ∀ o ∈ ops, o.1.Given fun y => y < a.beg ∨ a.stop ≤ y)
    (hal : (Page.load s).AllowsAll (readAll a.mem ops))
    (hlen : s.length + ((readAll a.mem ops).map fun o => o.1.cost).sum ≤ 65533) :
    memSession src ops a = .longjmp ∨ ∃ vs M' a' d', memSession src ops a = .ok (some (vs, M', a')) ∧ Reachable d' ∧
      (∀ mem', SameButFree a' a'.mem mem' → InMemory mem' M' d') ∧ Shows d' ((Page.load s).run (readAll a.mem ops)) ∧
      printHTML d' = .ok ((Page.load s).run (readAll a.mem ops)).print ∧ GivesAll (Page.load s) (readAll a.mem ops) vs ∧
      a.beg ≤ a'.beg ∧ a'.beg ≤ a'.stop ∧ a'.stop = a.stop ∧ ∀ y, y < a.beg ∨ a.stop ≤ y → a'.mem y = a.mem y := by
  have hc := C93_every_input s (by omega)
  rw [ho] at hc
  obtain ⟨d, hd, _⟩ := hc
  rcases C83_parse_in_memory a ha h0 src s hs _ hd with x | ⟨q, a1, x, b1, _, b3, b4, hq, hM⟩
  · left; unfold memSession; rw [x]; rfl
  · cases q with
    | none => exact absurd (hq.1 rfl) (by simp)
    | some M =>
      have hh : Held (fun y => y < a.beg ∨ a.stop ≤ y) M a1 d := (MemHistory.created ha h0 hs hd x).held
      have hsame : readAll a1.mem ops = readAll a.mem ops :=
        List.map_congr_left fun o' ho' => by rw [read_congr (hg o' ho') b4]
      have := memEach_shows _ ops M a1 d hh (.parsed hd) _ (C95_load s d hd) hg (by rw [hsame]; exact hal)
        (by rw [hsame]; exact (createDom_room hlen).elim hd d rfl)
      rw [hsame] at this
      rcases this with y | ⟨vs, M2, a2, d2, y, _, hh2, h2, s2, g2, c1, c2, c3⟩
      · left; unfold memSession; rw [x]; show (memEach ops M a1 >>= _) = _; rw [y]; rfl
      · right
        refine ⟨vs, M2, a2, d2, ?_, h2, ?_, s2, (C95_print d2 h2 _ s2).1, g2, le_trans b1 c1, ?_, c2.trans b3, fun w hw => (c3 w hw).trans (b4 w hw)⟩
        · unfold memSession; rw [x]; show (memEach ops M a1 >>= _) = _; rw [y]; rfl
        · intro mem' hm
          obtain ⟨V, own, z, hr, _⟩ := hh2
          exact (hr.rewrite hm).inMemory
        · obtain ⟨V, own, z, hr, _⟩ := hh2
          exact hr.top

/-! ## A concrete session -/

/-- Calls whose strings are parts of the source: the text `y` at the end of the element, an attribute, and a replacement. -/
def memOps : List (MOp × (Nat → Bool)) :=
  [(.appendText 2 ⟨1012, 1⟩, fun _ => true), (.add 4 ⟨1001, 1⟩ ⟨1005, 1⟩, fun _ => true), (.replaceText 3 ⟨1007, 1⟩, fun _ => true)]

example (n : Int) : ∀ o ∈ memOps, o.1.Given fun y => y < (parseArena n).beg ∨ (parseArena n).stop ≤ y := by
  intro o ho
  simp only [memOps, List.mem_cons, List.not_mem_nil, or_false] at ho
  rcases ho with rfl | rfl | rfl <;>
    (refine ⟨?_, ?_, ?_, ?_⟩ <;> simp [MOp.node, MOp.strings, parseArena] <;> (try constructor) <;> (intros; omega))

theorem memOps_read : readAll (parseArena 20000).mem memOps =
    [(.appendText 2 b!"y", fun _ => true), (.attr (.add 4 b!"p" b!"b"), fun _ => true), (.replaceText 3 b!"c", fun _ => true)] := rfl

example : ∃ ts, outcome b!"<p a=b c>x  y<i/></p>" = .document ts := ⟨_, rfl⟩
example : (Page.load b!"<p a=b c>x  y<i/></p>").AllowsAll (readAll (parseArena 20000).mem memOps) := by
  rw [memOps_read]
  refine ⟨⟨.elem b!"p" [(b!"a", b!"b")] [b!"c"], ?_, rfl⟩, ⟨.elem b!"i" [] [], ?_⟩, ?_, trivial⟩
  · exact .tail _ (.head _)
  · exact .tail _ (.tail _ (.tail _ (.head _)))
  · exact ⟨_, rfl⟩

set_option maxRecDepth 8000 in
/-- The session runs in an arena of 20000 bytes, and jumps in one of 1300, where the document still has room. -/
example : okAnd (memSession parseSrc memOps (parseArena 20000)) (fun r =>
      match r with
      | none => false
      | some r => decide (r.1 = [5, 0, 6])) = true ∧ jumps (memSession parseSrc memOps (parseArena 1300)) = true ∧
    jumps (memCreateDom parseSrc (parseArena 1300)) = false := by
  decide +kernel

example : ((Page.load b!"<p a=b c>x  y<i/></p>").run (readAll (parseArena 20000).mem memOps)).print =
    b!"<p c a=\"b\">c<i p=\"b\"/>y</p>" := by rw [memOps_read]; decide +kernel

end Flo
