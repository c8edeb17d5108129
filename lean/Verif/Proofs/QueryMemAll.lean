import Verif.Proofs.QueryMem
import Verif.Spec.QueryMem
/-!
# `querySelectorAll` and `querySelector` in the arena's memory
-/
namespace Flo
open Spec

theorem words16_succ (mem : Int → UInt8) (p : Int) (n : Nat) : words16 mem p (n + 1) = words16 mem p n ++ [word16 mem (p + 2 * (n : Int))] := by
  unfold words16; rw [List.range_succ, List.map_append]; rfl

theorem words16_congr {m m' : Int → UInt8} {p : Int} {n : Nat} (h : ∀ x, p ≤ x → x < p + 2 * n → m x = m' x) : words16 m p n = words16 m' p n := by
  unfold words16
  refine List.map_congr_left fun i hi => ?_
  rw [List.mem_range] at hi
  unfold word16
  rw [h _ (by omega) (by omega), h _ (by omega) (by omega)]

theorem words16_length (mem : Int → UInt8) (p : Int) (n : Nat) : (words16 mem p n).length = n := by unfold words16; simp

theorem toArrayLoop_mem {s : MSet} {m : U16Set} {p : Int} {n : Nat} : ∀ (k i j : Nat) (a : Arena), Slots a s m → s.buf + 2 * 2 ^ s.exp ≤ p →
    i + k = 2 ^ s.exp → j + ((m.buf.drop i).filter (· ≠ 0)).length = n →
    ∃ a', memToArrayLoop s p n k i j a = .ok a' ∧ a'.beg = a.beg ∧ a'.stop = a.stop ∧
      (∀ x, x < p ∨ p + 2 * n ≤ x → a'.mem x = a.mem x) ∧
      words16 a'.mem p n = words16 a.mem p j ++ (m.buf.drop i).filter (· ≠ 0) := by
  intro k
  induction k with
  | zero =>
    intro i j a h hp hi hj
    rw [show i = 2 ^ s.exp by omega, h.done] at hj ⊢
    have hj : j = n := by simpa using hj
    subst hj
    exact ⟨a, rfl, rfl, rfl, fun _ _ => rfl, by simp⟩
  | succ k ih =>
    intro i j a h hp hi hj
    obtain ⟨v, e1, e2, e3⟩ := h.next hi
    rw [e2] at hj ⊢
    unfold memToArrayLoop
    rw [e1, Out.bind_ok]
    by_cases hv : v ≠ 0
    · rw [if_pos hv]
      rw [List.filter_cons_of_pos (by simpa using hv)] at hj ⊢
      rw [List.length_cons] at hj
      rw [if_pos (by omega)]
      have hk : Slots { a with mem := write16 (p + 2 * (j : Int)) v a.mem } s m := by
        refine h.keep (le_refl _) (fun x hx => write16_other ?_)
        have := hx.2
        omega
      obtain ⟨a', f1, f2, f3, f4, f5⟩ := ih (i + 1) (j + 1) _ hk hp (by omega) (by omega)
      refine ⟨a', f1, f2, f3, fun x hx => ?_, ?_⟩
      · rw [f4 x hx]
        exact write16_other (by omega)
      · rw [f5, words16_succ]
        have e4 : word16 (write16 (p + 2 * (j : Int)) v a.mem) (p + 2 * (j : Int)) = v := read16_write16 e3
        show words16 (write16 _ v a.mem) p j ++ [word16 (write16 _ v a.mem) _] ++ _ = _
        rw [e4, words16_congr (m' := a.mem) (fun x hx hx' => write16_other (by omega))]
        simp
    · rw [if_neg hv]
      rw [List.filter_cons_of_neg (by simpa using hv)] at hj ⊢
      exact ih (i + 1) j a h hp (by omega) hj

section
variable {pun : Nat → Nat} {d : Dom} {ch : Nat → List Nat}

/-- What `querySelectorAll` leaves in memory. -/
inductive QAll (perm : Arena) : QRes (List Nat) → QRes (Int × Nat) × Arena → Prop
  | fail {st : QStatus} {mem : Int → UInt8} : KeepsRest perm mem → QAll perm (.fail st) (.fail st, { perm with mem := mem })
  | go {L : List Nat} {p : Int} {a : Arena} : KeepsRest perm a.mem → words16 a.mem p L.length = L → perm.beg ≤ p → p ≤ perm.beg + 1 → p % 2 = 0 →
      a.beg = p + 2 * L.length → a.beg ≤ perm.stop → a.stop = perm.stop → QAll perm (.go L) (.go (p, L.length), a)

theorem querySelectorAll_mem (h : DomI d ch) (css : Str) {perm : Arena} (hf : perm.beg ≤ perm.stop) :
    Sim perm.stop (perm.beg + (2 * (css.length : Int) + 3) * (5 * 2 ^ 18)) (querySelectorAll pun css d) (memQuerySelectorAll pun css d perm) (QAll perm) := by
  generalize hlim : perm.beg + (2 * (css.length : Int) + 3) * (5 * 2 ^ 18) = lim
  have hlim' : perm.beg + 2 * (5 * 2 ^ 18) * (css.length : Int) + 3 * (5 * 2 ^ 18) = lim := by rw [← hlim]; ring
  have hn : (0 : Int) ≤ css.length := by positivity
  unfold querySelectorAll memQuerySelectorAll
  have c0 : Step (fun _ => False) perm perm := Step.refl _ _
  have hfr := U16OK.fresh hashID
  have key : Sim perm.stop lim (Out.ok U16Set.fresh >>= fun m0 => Out.ok U16Set.fresh >>= fun m1 =>
      selectLoop pun css d (css.length + 1) 0 m1 m0 >>= fun q => match q with
        | .fail st => .ok (.fail st)
        | .go results => u16ToArray results >>= fun arr => .ok (.go arr)) (memQuerySelectorAll pun css d perm) (QAll perm) := by
    unfold memQuerySelectorAll
    refine Sim.bind (new_good hf c0 (e := 7) (m := U16Set.fresh) rfl hfr.1 (lim := perm.beg + 5 * 2 ^ 18) (by unfold pot; omega) |>.limit (by omega)) ?_
    rintro m0 ⟨rs, a1⟩ hm0 - ⟨h1, -⟩
    cases hm0
    have r1 := h1.room
    dsimp only at r1 ⊢
    have gr := h1.good
    have hp1 := Own.potn hf gr
    refine Sim.bind (new_good hf h1.step (e := 7) (m := U16Set.fresh) rfl hfr.1 (lim := a1.beg + 5 * 2 ^ 18) (by dsimp only; unfold pot; omega)
      |>.limit (by dsimp only at hp1; omega)) ?_
    rintro m1 ⟨set, a2⟩ hm1 - ⟨h2, -⟩
    cases hm1
    have r2 := h2.room
    obtain ⟨gr2, q2⟩ := h2.frame rs _ (fun _ _ => id) gr
    dsimp only at r2 gr2 q2 ⊢
    refine Sim.bind (selectLoop_good hf h css (css.length + 1) 0 h2.step h2.good hfr.2.1 gr2 q2.symm (lim := perm.beg + 2 * (5 * 2 ^ 18) * (css.length : Int) + 2 * (5 * 2 ^ 18))
      (by rw [Nat.sub_zero]; dsimp only; omega) |>.limit (by omega)) ?_
    intro q r hq1 hq2 hq
    clear hq1 hq2
    cases hq with
    | fail st =>
      rename_i st' a3
      exact Sim.ok (.fail (fun x hx => st.mem x id hx))
    | go h3 =>
      rename_i m3 s3 a3
      have r3 := h3.room
      have g3 := h3.good
      have st3 := h3.step
      dsimp only at r3 g3 st3 ⊢
      have hsmall : (m3.toList 0).length < 2 ^ m3.exp := g3.holds.ok.free
      have hcard := g3.holds.ok.card
      have hpn := Own.potn hf g3
      intro L hL
      rw [Out.bind_eq_ok] at hL
      obtain ⟨arr, hL1, hL2⟩ := hL
      cases hL2
      have hlen : m3.len = arr.length ∧ arr = m3.toList 0 := by
        unfold u16ToArray at hL1
        split at hL1
        · rename_i hx; cases hL1; exact ⟨hx.symm, rfl⟩
        · cases hL1
      obtain ⟨hlen, rfl⟩ := hlen
      have hslen : s3.len = (m3.toList 0).length := g3.holds.len.trans hlen
      have hpw : ((m3.toList 0).length : Int) < 2 ^ s3.exp := by
        rw [← two_pow_cast, g3.holds.exp]; exact_mod_cast hsmall
      have htop := g3.holds.top
      have hbuf : perm.beg ≤ s3.buf := by
        have : SBlk s3 s3.buf := ⟨le_refl _, by omega⟩
        rcases g3.sub _ this with h | h
        · exact False.elim h
        · exact h.1
      have hfit3 := st3.fit hf
      have hst3 := st3.stop
      unfold memToArray
      rw [hslen]
      rcases arenaAlloc_cases (zero := false) (nof := false) (a := a3) (size := 2) (align := 2) (count := ((m3.toList 0).length : Int)) (by omega) isAlign_two
        (by positivity) with ⟨src, a4, e4, hA⟩ | ⟨hlt, e4⟩
      · right
        rw [e4]
        have hab := hA.above
        have hbe := hA.beg
        have hsto := hA.stop
        have hmem4 := hA.keeps rfl
        have hk4 : Slots a4 s3 m3 := g3.holds.toSlots.keep (by omega) (fun x _ => by rw [hmem4])
        obtain ⟨a5, f1, f2, f3, f4, f5⟩ := toArrayLoop_mem (n := (m3.toList 0).length) (p := src) (2 ^ s3.exp) 0 0 a4 hk4 (by omega) (by omega)
          (by rw [List.drop_zero, Nat.zero_add]; rfl)
        rw [List.drop_zero] at f5
        have f5 : words16 a5.mem src (m3.toList 0).length = m3.toList 0 := by rw [f5]; rfl
        rw [Out.bind_ok]
        dsimp only
        rw [f1, Out.bind_ok, Out.bind_ok]
        dsimp only
        have hkeep : KeepsRest perm a5.mem := by
          intro x hx
          by_cases hlow : x < src ∨ src + 2 * ((m3.toList 0).length : Int) ≤ x
          · rw [f4 x hlow, hmem4]
            exact st3.mem x id hx
          · exfalso
            by_cases hz : 0 < ((m3.toList 0).length : Int)
            · have := hA.fits hz
              omega
            · omega
        rcases arenaAlloc_cases (zero := false) (nof := false) (a := { perm with mem := a5.mem }) (size := 2) (align := 2) (count := ((m3.toList 0).length : Int))
          (by omega) isAlign_two (by positivity) with ⟨p, a6, e6, hB⟩ | ⟨hlt, e6⟩
        · rw [e6]
          have b1 := hB.above
          have b2 := hB.close
          have b3 := hB.beg
          have b4 := hB.stop
          have b5 := hB.keeps rfl
          dsimp only at b1 b2 b4 b5
          rw [Out.bind_ok]
          dsimp only
          unfold memcpyC
          rw [if_neg (by omega), Out.bind_ok]
          have hlow : ∀ x, x < perm.beg ∨ perm.stop ≤ x → ¬(p ≤ x ∧ x < p + 2 * ((m3.toList 0).length : Int)) := by
            intro x hx
            by_cases hz : 0 < ((m3.toList 0).length : Int)
            · have := hA.fits hz
              omega
            · omega
          have hgo : QAll perm (.go (m3.toList 0)) (.go (p, (m3.toList 0).length),
              { a6 with mem := memCopy p src (2 * ((m3.toList 0).length : Int)) a6.mem }) := by
            refine .go (fun x hx => ?_) ?_ b1 (by omega) hB.aligned b3 ?_ b4
            · show memCopy _ _ _ _ x = _
              unfold memCopy
              rw [if_neg (hlow x hx), b5]
              exact hkeep x hx
            · conv_rhs => rw [← f5]
              unfold words16
              refine List.map_congr_left fun i hi => ?_
              rw [List.mem_range] at hi
              have hi' : (i : Int) < ((m3.toList 0).length : Int) := by exact_mod_cast hi
              unfold word16
              show (memCopy _ _ _ _ _).toNat + 256 * (memCopy _ _ _ _ _).toNat = _
              unfold memCopy
              rw [if_pos (by omega), if_pos (by omega), b5]
              rw [show p + 2 * (i : Int) - p + src = src + 2 * (i : Int) by omega, show p + 2 * (i : Int) + 1 - p + src = src + 2 * (i : Int) + 1 by omega]
            · show a6.beg ≤ _
              omega
          exact ⟨_, rfl, hgo⟩
        · exfalso
          have := Int.emod_lt_of_pos (-perm.beg) (show (0 : Int) < 2 by omega)
          dsimp only at hlt
          omega
      · left
        rw [e4]
        refine ⟨rfl, ?_⟩
        have := Int.emod_lt_of_pos (-a3.beg) (show (0 : Int) < 2 by omega)
        have : ((m3.toList 0).length : Int) ≤ 65535 := by exact_mod_cast hcard
        omega
  exact key

theorem findLoop_mem (mem : Int → UInt8) (p : Int) (cur : Nat) : ∀ (k i : Nat),
    memFindLoop p cur mem k i = ((List.range k).map (fun j : Nat => word16 mem (p + 2 * ((i + j : Nat) : Int)))).contains cur := by
  intro k
  induction k with
  | zero => intro i; rfl
  | succ k ih =>
    intro i
    unfold memFindLoop
    rw [List.range_succ_eq_map, List.map_cons, List.contains_cons, List.map_map]
    show (if word16 mem (p + 2 * (i : Int)) = cur then true else _) = _
    rw [ih]
    show _ = (cur == word16 mem (p + 2 * (i : Int)) || _)
    by_cases hc : word16 mem (p + 2 * (i : Int)) = cur
    · rw [if_pos hc, hc]; simp
    · rw [if_neg hc]
      rw [show (cur == word16 mem (p + 2 * (i : Int))) = false by simpa using fun h => hc h.symm, Bool.false_or]
      congr 1
      refine List.map_congr_left fun j _ => ?_
      rw [show i + 1 + j = i + (j + 1) by omega]
      rfl

theorem selectorLoop_mem {L : List Nat} {mem : Int → UInt8} {p : Int} (h : words16 mem p L.length = L) : ∀ (f cur : Nat),
    memSelectorLoop d p L.length mem f cur = selectorLoop d L f cur := by
  have hfind : ∀ cur, memFindLoop p cur mem L.length 0 = L.contains cur := by
    intro cur
    rw [findLoop_mem]
    simp only [Nat.zero_add]
    have : (List.range L.length).map (fun j : Nat => word16 mem (p + 2 * (j : Int))) = L := h
    rw [this]
  intro f
  induction f with
  | zero => intro cur; rfl
  | succ f ih =>
    intro cur
    unfold memSelectorLoop selectorLoop
    rw [hfind]
    simp only [ih]

theorem isAlign_eight : IsAlign 8 := ⟨3, by omega, rfl⟩

theorem querySelector_mem (h : DomI d ch) (css : Str) {a : Arena} (hf : a.beg ≤ a.stop) :
    Sim a.stop (a.beg + 23 + (2 * (css.length : Int) + 3) * (5 * 2 ^ 18)) (querySelector pun css d) (memQuerySelector pun css d a)
      (fun q r => r.1 = q ∧ KeepsRest a r.2) := by
  unfold memQuerySelector
  have hpos : (0 : Int) ≤ (2 * (css.length : Int) + 3) * (5 * 2 ^ 18) := by positivity
  rcases arenaAlloc_cases (zero := false) (nof := false) (a := a) (size := 16) (align := 8) (count := 1) (by omega) isAlign_eight (by omega) with
    ⟨p, a1, e1, hA⟩ | ⟨hlt, e1⟩
  · rw [e1, Out.bind_ok]
    dsimp only
    have h1 := hA.above
    have h2 := hA.beg
    have h3 := hA.stop
    have h4 := hA.fits (by omega)
    have h5 := hA.keeps rfl
    have h6 := hA.close
    have hrest : ∀ mem, KeepsRest a1 mem → KeepsRest a mem := by
      intro mem hm x hx
      rw [hm x (by omega), h5]
    unfold querySelector
    have := querySelectorAll_mem (pun := pun) h css (perm := a1) (by omega)
    rw [h3] at this
    refine Sim.bind (this.limit (by omega)) ?_
    intro q r hq1 hq2 hq
    clear hq1 hq2
    cases hq with
    | fail hk => exact Sim.ok ⟨rfl, hrest _ hk⟩
    | @go L p' a2 hk hw _ _ _ _ _ _ =>
      dsimp only
      by_cases hL : L.length = 0
      · rw [if_pos hL, if_pos hL]
        exact Sim.ok ⟨rfl, hrest _ hk⟩
      · rw [if_neg hL, if_neg hL, selectorLoop_mem hw]
        refine Sim.bind Sim.same (fun q b _ _ he => ?_)
        cases he
        exact Sim.ok ⟨rfl, hrest _ hk⟩
  · rw [e1]
    intro q _
    left
    refine ⟨rfl, ?_⟩
    have := Int.emod_lt_of_pos (-a.beg) (show (0 : Int) < 8 by omega)
    omega

end
end Flo
