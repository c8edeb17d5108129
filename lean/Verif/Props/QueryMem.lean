import Verif.Proofs.QueryMemAll
import Verif.Props.Query
/-!
# C81, C82: what a query does to the memory of the arena
-/
namespace Flo
open Spec

/-! ## C81: a query writes only free memory, and its array holds the answer -/

/-- `querySelectorAll` on an arena: it takes the arena's failure exit; or it reports the same error as on values and leaves the arena's
position alone; or it returns an array that holds exactly the answer, at the first even address of the free part, and the arena's
position is just behind the array.  In the last two cases no byte outside the free part of the arena is changed. -/
theorem C81_array (d : Dom) (h : Reachable d) (pun : Nat → Nat) (css : Str) (perm : Arena) (hp : perm.beg ≤ perm.stop) :
    memQuerySelectorAll pun css d perm = .longjmp ∨
    (∃ st mem, querySelectorAll pun css d = .ok (.fail st) ∧
      memQuerySelectorAll pun css d perm = .ok (.fail st, { perm with mem := mem }) ∧ KeepsRest perm mem) ∨
    (∃ L p mem, querySelectorAll pun css d = .ok (.go L) ∧
      memQuerySelectorAll pun css d perm = .ok (.go (p, L.length), { perm with beg := p + 2 * L.length, mem := mem }) ∧
      words16 mem p L.length = L ∧ KeepsRest perm mem ∧
      p % 2 = 0 ∧ perm.beg ≤ p ∧ p ≤ perm.beg + 1 ∧ p + 2 * L.length ≤ perm.stop) := by
  obtain ⟨hd, _⟩ := reach_domI h
  have hm := querySelectorAll_mem (pun := pun) hd css hp
  have tot : ∃ q, querySelectorAll pun css d = .ok q := by
    rcases C34_total d h pun css with ⟨st, _, e⟩ | ⟨L, e, _⟩
    · exact ⟨_, e⟩
    · exact ⟨_, e⟩
  obtain ⟨q, hq⟩ := tot
  rcases hm q hq with ⟨hj, _⟩ | ⟨r, hr, hQ⟩
  · exact Or.inl hj
  · right
    cases hQ with
    | @fail st mem hk => exact Or.inl ⟨st, mem, hq, hr, hk⟩
    | @go L p a h1 h2 h3 h4 h5 h6 h7 h8 =>
      refine Or.inr ⟨L, p, a.mem, hq, ?_, h2, h1, h5, h3, h4, by omega⟩
      rw [hr]
      have : a = { perm with beg := p + 2 * L.length, mem := a.mem } := by
        cases a; dsimp only at h6 h8; rw [h6, h8]
      rw [← this]

/-- `querySelector` on a copy of the arena: it takes the failure exit, or gives the answer it gives on values; no byte outside the free
part is changed (the arena itself is passed by value). -/
theorem C81_first (d : Dom) (h : Reachable d) (pun : Nat → Nat) (css : Str) (a : Arena) (ha : a.beg ≤ a.stop) :
    memQuerySelector pun css d a = .longjmp ∨
    ∃ q mem, querySelector pun css d = .ok q ∧ memQuerySelector pun css d a = .ok (q, mem) ∧ KeepsRest a mem := by
  obtain ⟨hd, _⟩ := reach_domI h
  have hm := querySelector_mem (pun := pun) hd css ha
  have tot : ∃ q, querySelector pun css d = .ok q := by
    rcases querySelector_eval (pun := pun) hd css with ⟨st, _, e⟩ | ⟨L, _, e⟩
    · exact ⟨_, e⟩
    · exact ⟨_, e⟩
  obtain ⟨q, hq⟩ := tot
  rcases hm q hq with ⟨hj, _⟩ | ⟨⟨r, mem⟩, hr, he, hk⟩
  · exact Or.inl hj
  · cases he
    exact Or.inr ⟨_, mem, hq, hr, hk⟩

/-! ## C82: how much room a query needs -/

/-- With `(2 n + 3) · 1310720` free bytes, `n` the length of the query, `querySelectorAll` never takes the failure exit, whatever the document. -/
theorem C82_room (d : Dom) (h : Reachable d) (pun : Nat → Nat) (css : Str) (perm : Arena)
    (hr : perm.beg + (2 * (css.length : Int) + 3) * 1310720 ≤ perm.stop) : memQuerySelectorAll pun css d perm ≠ .longjmp := by
  obtain ⟨hd, _⟩ := reach_domI h
  have hpos : (0 : Int) ≤ (2 * (css.length : Int) + 3) * 1310720 := by positivity
  have hm := querySelectorAll_mem (pun := pun) hd css (perm := perm) (by omega)
  intro hj
  have tot : ∃ q, querySelectorAll pun css d = .ok q := by
    rcases C34_total d h pun css with ⟨st, _, e⟩ | ⟨L, e, _⟩
    · exact ⟨_, e⟩
    · exact ⟨_, e⟩
  obtain ⟨q, hq⟩ := tot
  rcases hm q hq with ⟨_, hlt⟩ | ⟨r, hr', _⟩
  · norm_num at hlt; omega
  · rw [hj] at hr'; cases hr'

/-- The same for `querySelector`, with 23 bytes more. -/
theorem C82_room_first (d : Dom) (h : Reachable d) (pun : Nat → Nat) (css : Str) (a : Arena)
    (hr : a.beg + 23 + (2 * (css.length : Int) + 3) * 1310720 ≤ a.stop) : memQuerySelector pun css d a ≠ .longjmp := by
  obtain ⟨hd, _⟩ := reach_domI h
  have hpos : (0 : Int) ≤ (2 * (css.length : Int) + 3) * 1310720 := by positivity
  have hm := querySelector_mem (pun := pun) hd css (a := a) (by omega)
  intro hj
  have tot : ∃ q, querySelector pun css d = .ok q := by
    rcases querySelector_eval (pun := pun) hd css with ⟨st, _, e⟩ | ⟨L, _, e⟩
    · exact ⟨_, e⟩
    · exact ⟨_, e⟩
  obtain ⟨q, hq⟩ := tot
  rcases hm q hq with ⟨_, hlt⟩ | ⟨r, hr', _⟩
  · norm_num at hlt; omega
  · rw [hj] at hr'; cases hr'

/-- With fewer than 512 free bytes every query takes the failure exit. -/
theorem C82_least (d : Dom) (pun : Nat → Nat) (css : Str) (perm : Arena) (hr : perm.stop < perm.beg + 512) :
    memQuerySelectorAll pun css d perm = .longjmp := by
  unfold memQuerySelectorAll
  have hj : ∀ a : Arena, a.stop < a.beg + 256 → memNewSet 7 a = .longjmp := by
    intro a ha
    rcases newSet_mem 7 (by omega) a with ⟨h, _⟩ | ⟨s, a', _, _, _, h4, h5, _, _, h8, _⟩
    · exact h
    · omega
  rcases newSet_mem 7 (by omega) perm with ⟨h, _⟩ | ⟨s, a', h1, _, _, h4, h5, _, _, h8, h9, _⟩
  · rw [h]; rfl
  · rw [h1, Out.bind_ok]
    dsimp only
    rw [hj a' (by omega)]
    rfl

/-- An arena with 1000 free bytes from the odd address 101, whose memory is full of 7s. -/
def smallArena : Arena := { beg := 101, stop := 1101, mem := fun _ => 7 }

/-- A query on it: two nodes, at 102. -/
example : ∃ d, createDom b!"<div><b></b><p></p></div><p></p>" = .ok (some d) ∧
    (okAnd (memQuerySelectorAll (fun _ => 0) b!"p" d smallArena) (fun r => decide (r.1 = .go (102, 2) ∧ r.2.beg = 106 ∧ r.2.stop = 1101 ∧
      words16 r.2.mem 102 2 = [4, 5])) &&
    jumps (memQuerySelectorAll (fun _ => 0) b!"div p" d smallArena) &&
    okAnd (memQuerySelector (fun _ => 0) b!"p" d smallArena) (fun r => decide (r.1 = .go (some 4)))) = true :=
  someAnd_ex (by decide +kernel)

end Flo
