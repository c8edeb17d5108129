import Verif.Model.Msi
import Verif.Proofs.Sat
import Mathlib.Data.Nat.ModEq
import Mathlib.Tactic.Ring
import Mathlib.Data.Nat.Prime.Basic
import Mathlib.Data.Fintype.EquivFin
import Mathlib.Data.List.Perm.Basic
/-!
# The open-addressing sets
-/
namespace Flo

/-- The odd step of a probe sequence. -/
def msiStep (hash : UInt64) (exp : Nat) : Nat := ((hash >>> UInt64.ofNat (64 - exp)).toUInt32 ||| 1).toNat

/-- The slot tested in round `k`. -/
def probe (hash : UInt64) (exp k : Nat) : Nat := (hash.toUInt32.toNat + (k + 1) * msiStep hash exp) % 2 ^ exp

theorem msiStep_odd (hash : UInt64) (exp : Nat) : msiStep hash exp % 2 = 1 := by
  unfold msiStep
  rw [UInt32.toNat_or]
  have : (1 : UInt32).toNat = 1 := rfl
  rw [this]
  generalize (hash >>> UInt64.ofNat (64 - exp)).toUInt32.toNat = x
  rw [Nat.or_mod_two_eq_one]
  simp

theorem mask_eq {e : Nat} (he : e ≤ 31) : (((1 : UInt32) <<< UInt32.ofNat e) - 1).toNat = 2 ^ e - 1 := by
  have h : ∀ e : Fin 32, (((1 : UInt32) <<< UInt32.ofNat e.val) - 1).toNat = 2 ^ e.val - 1 := by decide
  exact h ⟨e, by omega⟩

theorem indexLookup_toNat (hash : UInt64) {e : Nat} (he : e ≤ 31) (i : UInt32) :
    (indexLookup hash e i).toNat = (i.toNat + msiStep hash e) % 2 ^ e := by
  unfold indexLookup
  rw [UInt32.toNat_and, mask_eq he, Nat.and_two_pow_sub_one_eq_mod, UInt32.toNat_add]
  have : 2 ^ e ∣ 2 ^ 32 := Nat.pow_dvd_pow 2 (by omega)
  rw [Nat.mod_mod_of_dvd _ this]
  rfl

/-- The index variable before round `k`. -/
theorem probe_zero (hash : UInt64) {e : Nat} (he : e ≤ 31) :
    (indexLookup hash e hash.toUInt32).toNat = probe hash e 0 := by
  rw [indexLookup_toNat _ he]; simp [probe]

theorem probe_succ (hash : UInt64) {e k : Nat} (he : e ≤ 31) {i : UInt32} (hi : i.toNat = probe hash e k) :
    (indexLookup hash e i).toNat = probe hash e (k + 1) := by
  rw [indexLookup_toNat _ he, hi]
  unfold probe
  rw [Nat.mod_add_mod]
  congr 1
  ring

theorem probe_lt (hash : UInt64) (e k : Nat) : probe hash e k < 2 ^ e := Nat.mod_lt _ (Nat.two_pow_pos e)

theorem probe_inj (hash : UInt64) {e k k' : Nat} (hk : k < 2 ^ e) (hk' : k' < 2 ^ e)
    (h : probe hash e k = probe hash e k') : k = k' := by
  unfold probe at h
  have h1 : (k + 1) * msiStep hash e ≡ (k' + 1) * msiStep hash e [MOD 2 ^ e] := Nat.ModEq.add_left_cancel' _ h
  have hc : Nat.gcd (2 ^ e) (msiStep hash e) = 1 := by
    apply Nat.Coprime.pow_left
    rw [Nat.coprime_two_left, Nat.odd_iff]
    exact msiStep_odd hash e
  have h2 : k + 1 ≡ k' + 1 [MOD 2 ^ e] := Nat.ModEq.cancel_right_of_coprime hc h1
  have h3 : k ≡ k' [MOD 2 ^ e] := Nat.ModEq.add_right_cancel' 1 h2
  have := Nat.mod_eq_of_lt hk
  have := Nat.mod_eq_of_lt hk'
  unfold Nat.ModEq at h3
  omega

/-- Because the step is odd, the probe sequence visits every slot. -/
theorem probe_surj (hash : UInt64) (e : Nat) {j : Nat} (hj : j < 2 ^ e) : ∃ k, k < 2 ^ e ∧ probe hash e k = j := by
  let f : Fin (2 ^ e) → Fin (2 ^ e) := fun k => ⟨probe hash e k, probe_lt hash e k⟩
  have hf : Function.Injective f := by
    intro a b hab
    have : probe hash e a = probe hash e b := by simpa [f] using hab
    exact Fin.ext (probe_inj hash a.2 b.2 this)
  obtain ⟨k, hk⟩ := (Finite.injective_iff_surjective.mp hf) ⟨j, hj⟩
  refine ⟨k, k.2, ?_⟩
  have := congrArg Fin.val hk
  simpa [f] using this

set_option linter.unusedSectionVars false
variable {α : Type} [DecidableEq α]

/-- The invariant of a set filled with the hash function `h`. -/
structure MsiOK (nil : α) (h : α → UInt64) (m : Msi α) : Prop where
  exp : m.exp ≤ 31
  size : m.buf.length = 2 ^ m.exp
  path : ∀ (j : Nat) (v : α), m.buf[j]? = some v → v ≠ nil →
    ∃ k, probe (h v) m.exp k = j ∧ ∀ k' < k, ∃ x, m.buf[probe (h v) m.exp k']? = some x ∧ x ≠ nil ∧ x ≠ v

theorem MsiOK.slot {nil : α} {h : α → UInt64} {m : Msi α} (hm : MsiOK nil h m) (hash : UInt64) (k : Nat) :
    ∃ x, m.buf[probe hash m.exp k]? = some x := by
  have := probe_lt hash m.exp k
  rw [← hm.size] at this
  exact ⟨_, List.getElem?_eq_getElem this⟩

theorem mem_toList {nil v : α} {m : Msi α} : v ∈ m.toList nil ↔ v ≠ nil ∧ v ∈ m.buf := by
  simp [Msi.toList, and_comm]

theorem exists_free {nil : α} {m : Msi α} (hl : (m.toList nil).length < m.buf.length) :
    ∃ j : Nat, m.buf[j]? = some nil := by
  by_contra hc
  have : ∀ v ∈ m.buf, v ≠ nil := by
    rintro v hv rfl
    obtain ⟨j, hj⟩ := List.mem_iff_getElem?.mp hv
    exact hc ⟨j, hj⟩
  have : m.toList nil = m.buf := by
    unfold Msi.toList
    rw [List.filter_eq_self]
    intro a ha
    simpa using this a ha
  rw [this] at hl
  omega

/-- Where the probe sequence of `v` stops: the first slot that is free or holds `v`. -/
theorem MsiOK.stop {nil : α} {h : α → UInt64} {m : Msi α} (hm : MsiOK nil h m) (hash : UInt64) (v : α)
    (hfree : (m.toList nil).length < 2 ^ m.exp) :
    ∃ k, k < 2 ^ m.exp ∧ (∀ k' < k, ∃ x, m.buf[probe hash m.exp k']? = some x ∧ x ≠ nil ∧ x ≠ v) ∧
      ∃ x, m.buf[probe hash m.exp k]? = some x ∧ (x = nil ∨ x = v) := by
  obtain ⟨j, hj⟩ := exists_free (nil := nil) (m := m) (by rw [hm.size]; exact hfree)
  have hj' : j < 2 ^ m.exp := by rw [← hm.size]; exact (List.getElem?_eq_some_iff.mp hj).1
  obtain ⟨k0, hk0, e⟩ := probe_surj hash m.exp hj'
  have hex : ∃ k, ∃ x, m.buf[probe hash m.exp k]? = some x ∧ (x = nil ∨ x = v) :=
    ⟨k0, nil, by rw [e]; exact hj, Or.inl rfl⟩
  classical
  refine ⟨Nat.find hex, ?_, ?_, Nat.find_spec hex⟩
  · exact lt_of_le_of_lt (Nat.find_min' hex ⟨nil, by rw [e]; exact hj, Or.inl rfl⟩) hk0
  · intro k' hk'
    have hn := Nat.find_min hex hk'
    obtain ⟨x, hx⟩ := hm.slot hash k'
    refine ⟨x, hx, ?_, ?_⟩
    · intro e; exact hn ⟨x, hx, Or.inl e⟩
    · intro e; exact hn ⟨x, hx, Or.inr e⟩

theorem msiInsertLoop_eq {nil v : α} {hash : UInt64} {m : Msi α} (he : m.exp ≤ 31) {k : Nat}
    (hb : ∀ k' < k, ∃ x, m.buf[probe hash m.exp k']? = some x ∧ x ≠ nil ∧ x ≠ v) {x : α}
    (hx : m.buf[probe hash m.exp k]? = some x) (hxv : x = nil ∨ x = v) :
    ∀ (f k0 : Nat) (i : UInt32), k0 ≤ k → k < k0 + f → (indexLookup hash m.exp i).toNat = probe hash m.exp k0 →
      msiInsertLoop nil v hash f i m =
        .ok (if x = nil then (true, { m with len := m.len + 1, buf := m.buf.set (probe hash m.exp k) v })
             else (false, m)) := by
  intro f
  induction f with
  | zero => intro k0 i h1 h2; omega
  | succ f ih =>
    intro k0 i h1 h2 hi
    unfold msiInsertLoop
    simp only [hi]
    by_cases hk : k0 = k
    · subst hk
      rw [hx]
      by_cases hxn : x = nil
      · simp [hxn]
      · have : x = v := hxv.resolve_left hxn
        subst this
        simp [hxn]
    · obtain ⟨y, hy, hy1, hy2⟩ := hb k0 (by omega)
      rw [hy]
      simp only [hy1, hy2, if_false]
      exact ih (k0 + 1) _ (by omega) (by omega) (probe_succ hash he hi)

theorem msiContainsLoop_eq {nil v : α} {hash : UInt64} {m : Msi α} (he : m.exp ≤ 31) {k : Nat}
    (hb : ∀ k' < k, ∃ x, m.buf[probe hash m.exp k']? = some x ∧ x ≠ nil ∧ x ≠ v) {x : α}
    (hx : m.buf[probe hash m.exp k]? = some x) (hxv : x = nil ∨ x = v) :
    ∀ (f k0 : Nat) (i : UInt32), k0 ≤ k → k < k0 + f → (indexLookup hash m.exp i).toNat = probe hash m.exp k0 →
      msiContainsLoop nil v hash m f i = .ok (decide (x ≠ nil)) := by
  intro f
  induction f with
  | zero => intro k0 i h1 h2; omega
  | succ f ih =>
    intro k0 i h1 h2 hi
    unfold msiContainsLoop
    simp only [hi]
    by_cases hk : k0 = k
    · subst hk
      rw [hx]
      by_cases hxn : x = nil
      · simp [hxn]
      · have : x = v := hxv.resolve_left hxn
        subst this
        simp [hxn]
    · obtain ⟨y, hy, hy1, hy2⟩ := hb k0 (by omega)
      rw [hy]
      simp only [hy1, hy2, if_false]
      exact ih (k0 + 1) _ (by omega) (by omega) (probe_succ hash he hi)

/-- A stored value is found at the end of its own path. -/
theorem MsiOK.stop_mem {nil : α} {h : α → UInt64} {m : Msi α} (hm : MsiOK nil h m) {v : α} {k : Nat}
    (hb : ∀ k' < k, ∃ x, m.buf[probe (h v) m.exp k']? = some x ∧ x ≠ nil ∧ x ≠ v) {x : α}
    (hx : m.buf[probe (h v) m.exp k]? = some x) (hxv : x = nil ∨ x = v) (hv : v ≠ nil) :
    x = v ↔ v ∈ m.toList nil := by
  constructor
  · rintro rfl
    exact mem_toList.mpr ⟨hv, List.mem_iff_getElem?.mpr ⟨_, hx⟩⟩
  · intro hmem
    obtain ⟨j, hj⟩ := List.mem_iff_getElem?.mp (mem_toList.mp hmem).2
    obtain ⟨k1, e1, h1⟩ := hm.path j v hj hv
    rcases hxv with rfl | rfl
    · rcases Nat.lt_trichotomy k k1 with hlt | rfl | hgt
      · obtain ⟨y, hy, hy1, _⟩ := h1 k hlt
        rw [hx] at hy; cases hy; exact absurd rfl hy1
      · rw [e1, hj] at hx; cases hx; exact absurd rfl hv
      · obtain ⟨y, hy, _, hy2⟩ := hb k1 hgt
        rw [e1, hj] at hy; cases hy; exact absurd rfl hy2
    · rfl

theorem filter_set_perm {nil v : α} (hv : v ≠ nil) : ∀ (l : List α) (j : Nat), l[j]? = some nil →
    ((l.set j v).filter (· ≠ nil)).Perm (v :: l.filter (· ≠ nil)) := by
  intro l
  induction l with
  | nil => intro j hj; simp at hj
  | cons a l ih =>
    intro j hj
    cases j with
    | zero =>
      simp at hj
      subst hj
      simp [hv]
    | succ j =>
      simp at hj
      rw [List.set_cons_succ]
      by_cases ha : a = nil
      · rw [List.filter_cons_of_neg (by simp [ha]), List.filter_cons_of_neg (by simp [ha])]
        exact ih j hj
      · rw [List.filter_cons_of_pos (by simp [ha]), List.filter_cons_of_pos (by simp [ha])]
        exact (List.Perm.cons a (ih j hj)).trans (List.Perm.swap v a _)

/-- Insertion of a proper value: nothing happens if it is there, otherwise it is added. -/
theorem MsiOK.insert {nil : α} {h : α → UInt64} {m : Msi α} (hm : MsiOK nil h m) {v : α} (hv : v ≠ nil)
    (hfree : (m.toList nil).length < 2 ^ m.exp) :
    (v ∈ m.toList nil ∧ msiInsert nil v (h v) m = .ok (false, m)) ∨
    (v ∉ m.toList nil ∧ ∃ m', msiInsert nil v (h v) m = .ok (true, m') ∧ MsiOK nil h m' ∧ m'.exp = m.exp ∧
      m'.len = m.len + 1 ∧ (m'.toList nil).Perm (v :: m.toList nil)) := by
  obtain ⟨k, hk, hb, x, hx, hxv⟩ := hm.stop (h v) v hfree
  have hmem := hm.stop_mem hb hx hxv hv
  have hrun := msiInsertLoop_eq hm.exp hb hx hxv (2 ^ m.exp + 1) 0 (h v).toUInt32 (by omega) (by omega)
    (probe_zero (h v) hm.exp)
  by_cases hxn : x = nil
  · right
    have hxv' : x ≠ v := by rintro rfl; exact hv hxn
    refine ⟨fun hc => hxv' (hmem.mpr hc),
      { m with len := m.len + 1, buf := m.buf.set (probe (h v) m.exp k) v },
      by unfold msiInsert; rw [hrun, if_pos hxn], ?_, rfl, rfl, ?_⟩
    · refine ⟨hm.exp, by simpa using hm.size, ?_⟩
      intro j w hj hw
      have hkl : probe (h v) m.exp k < m.buf.length := (List.getElem?_eq_some_iff.mp hx).1
      have hset : ∀ (i : Nat) (y : α), m.buf[i]? = some y → y ≠ nil →
          (m.buf.set (probe (h v) m.exp k) v)[i]? = some y := by
        intro i y hy hyn
        rw [List.getElem?_set_ne]
        · exact hy
        · rintro rfl
          rw [hx] at hy; cases hy; exact hyn hxn
      by_cases hjk : probe (h v) m.exp k = j
      · have : w = v := by
          have hj : (m.buf.set (probe (h v) m.exp k) v)[j]? = some w := hj
          rw [← hjk, List.getElem?_set_self hkl] at hj
          cases hj; rfl
        subst this
        refine ⟨k, hjk, fun k' hk' => ?_⟩
        obtain ⟨y, hy, hy1, hy2⟩ := hb k' hk'
        exact ⟨y, hset _ y hy hy1, hy1, hy2⟩
      · have hj : (m.buf.set (probe (h v) m.exp k) v)[j]? = some w := hj
        rw [List.getElem?_set_ne hjk] at hj
        obtain ⟨k1, e1, h1⟩ := hm.path j w hj hw
        refine ⟨k1, e1, fun k' hk' => ?_⟩
        obtain ⟨y, hy, hy1, hy2⟩ := h1 k' hk'
        exact ⟨y, hset _ y hy hy1, hy1, hy2⟩
    · exact filter_set_perm hv m.buf _ (by rw [hx, hxn])
  · left
    have hxv' : x = v := hxv.resolve_left hxn
    exact ⟨hmem.mp hxv', by unfold msiInsert; rw [hrun, if_neg hxn]⟩

/-- "Inserting" the free marker counts an element but stores nothing. -/
theorem MsiOK.insert_nil {nil : α} {h : α → UInt64} {m : Msi α} (hm : MsiOK nil h m)
    (hfree : (m.toList nil).length < 2 ^ m.exp) :
    ∃ b, msiInsert nil nil (h nil) m = .ok (b, { m with len := m.len + 1 }) := by
  obtain ⟨k, hk, hb, x, hx, hxv⟩ := hm.stop (h nil) nil hfree
  have hrun := msiInsertLoop_eq hm.exp hb hx hxv (2 ^ m.exp + 1) 0 (h nil).toUInt32 (by omega) (by omega)
    (probe_zero (h nil) hm.exp)
  have hxn : x = nil := by tauto
  refine ⟨true, ?_⟩
  unfold msiInsert
  rw [hrun, if_pos hxn]
  have : m.buf.set (probe (h nil) m.exp k) nil = m.buf := by
    rw [hxn] at hx
    apply List.ext_getElem?
    intro j
    by_cases hj : probe (h nil) m.exp k = j
    · subst hj
      rw [List.getElem?_set_self (List.getElem?_eq_some_iff.mp hx).1, hx]
    · rw [List.getElem?_set_ne hj]
  rw [this]

theorem MsiOK.contains {nil : α} {h : α → UInt64} {m : Msi α} (hm : MsiOK nil h m) (v : α)
    (hfree : (m.toList nil).length < 2 ^ m.exp) :
    msiContains nil v (h v) m = .ok (decide (v ∈ m.toList nil)) := by
  obtain ⟨k, hk, hb, x, hx, hxv⟩ := hm.stop (h v) v hfree
  have hrun := msiContainsLoop_eq hm.exp hb hx hxv (2 ^ m.exp + 1) 0 (h v).toUInt32 (by omega) (by omega)
    (probe_zero (h v) hm.exp)
  unfold msiContains
  rw [hrun]
  by_cases hv : v = nil
  · subst hv
    have hxn : x = v := by tauto
    simp [hxn, mem_toList]
  · have := hm.stop_mem hb hx hxv hv
    congr 1
    rw [decide_eq_decide, ← this]
    constructor
    · intro hxn; exact hxv.resolve_left hxn
    · rintro rfl; exact hv

theorem MsiOK.nodup {nil : α} {h : α → UInt64} {m : Msi α} (hm : MsiOK nil h m) : (m.toList nil).Nodup := by
  have key : ∀ (i j : Nat) (v : α), m.buf[i]? = some v → m.buf[j]? = some v → v ≠ nil → i = j := by
    intro i j v hi hj hv
    obtain ⟨k1, e1, h1⟩ := hm.path i v hi hv
    obtain ⟨k2, e2, h2⟩ := hm.path j v hj hv
    rcases Nat.lt_trichotomy k1 k2 with hlt | rfl | hgt
    · obtain ⟨y, hy, _, hy2⟩ := h2 k1 hlt
      rw [e1, hi] at hy; cases hy; exact absurd rfl hy2
    · rw [← e1, ← e2]
    · obtain ⟨y, hy, _, hy2⟩ := h1 k2 hgt
      rw [e2, hj] at hy; cases hy; exact absurd rfl hy2
  have : ∀ l : List α, (∀ (i j : Nat) (v : α), l[i]? = some v → l[j]? = some v → v ≠ nil → i = j) →
      (l.filter (· ≠ nil)).Nodup := by
    intro l
    induction l with
    | nil => simp
    | cons a l ih =>
      intro hl
      have ih := ih (fun i j v hi hj hv => by
        have := hl (i + 1) (j + 1) v (by simpa using hi) (by simpa using hj) hv
        omega)
      by_cases ha : a = nil
      · rw [List.filter_cons_of_neg (by simp [ha])]; exact ih
      · rw [List.filter_cons_of_pos (by simp [ha]), List.nodup_cons]
        refine ⟨?_, ih⟩
        intro hm
        obtain ⟨j, hj⟩ := List.mem_iff_getElem?.mp (List.mem_of_mem_filter hm)
        have := hl 0 (j + 1) a (by simp) (by simpa using hj) ha
        omega
  exact this m.buf key

theorem MsiOK.empty (nil : α) (h : α → UInt64) {e : Nat} (he : e ≤ 31) (len : Nat) :
    MsiOK nil h { exp := e, len := len, buf := List.replicate (2 ^ e) nil } where
  exp := he
  size := by simp
  path := by
    intro j v hj hv
    rw [List.getElem?_replicate] at hj
    split at hj
    · cases hj; exact absurd rfl hv
    · cases hj

theorem toList_replicate {nil : α} (n e len : Nat) :
    ({ exp := e, len := len, buf := List.replicate n nil } : Msi α).toList nil = [] := by
  simp [Msi.toList]

/-! ## The growing set of identifiers -/

/-- The invariant of the growing set: every stored value is a 16-bit number, and the counter is at least the
number of stored values (more if 0 was "inserted"). -/
structure U16OK (h : Nat → UInt64) (m : U16Set) : Prop where
  msi : MsiOK 0 h m
  small : m.exp ≤ 18
  one : 1 ≤ m.exp
  le : (m.toList 0).length ≤ m.len
  ge : m.len ≤ (m.toList 0).length + 1
  lt : ∀ v ∈ m.toList 0, v < 65536
  half : (m.toList 0).length ≤ 2 ^ m.exp / 2

theorem nodup_length_lt {l : List Nat} (hn : l.Nodup) (h : ∀ v ∈ l, v ≠ 0 ∧ v < 65536) : l.length ≤ 65535 := by
  have : l ⊆ (List.range 65535).map (· + 1) := by
    intro v hv
    have := h v hv
    simp only [List.mem_map, List.mem_range]
    exact ⟨v - 1, by omega, by omega⟩
  have := (hn.subperm this).length_le
  simpa using this

theorem U16OK.card {h : Nat → UInt64} {m : U16Set} (hm : U16OK h m) : (m.toList 0).length ≤ 65535 :=
  nodup_length_lt hm.msi.nodup (fun v hv => ⟨(mem_toList.mp hv).1, hm.lt v hv⟩)

theorem U16OK.free {h : Nat → UInt64} {m : U16Set} (hm : U16OK h m) : (m.toList 0).length < 2 ^ m.exp := by
  have := hm.half
  have := Nat.two_pow_pos m.exp
  omega

theorem rehash_ok {h : Nat → UInt64} : ∀ (l : List Nat) (m : U16Set), MsiOK 0 h m →
    m.len = (m.toList 0).length → (m.toList 0).length + (l.filter (· ≠ 0)).length < 2 ^ m.exp →
    (∀ v ∈ l, v ≠ 0 → v ∉ m.toList 0) → (l.filter (· ≠ 0)).Nodup →
    ∃ m', rehashLoopWith h l m = .ok m' ∧ MsiOK 0 h m' ∧ m'.exp = m.exp ∧ m'.len = (m'.toList 0).length ∧
      (m'.toList 0).Perm (m.toList 0 ++ l.filter (· ≠ 0)) := by
  intro l
  induction l with
  | nil => intro m hm hl _ _ _; exact ⟨m, rfl, hm, rfl, hl, by simp⟩
  | cons v l ih =>
    intro m hm hl hroom hnew hnd
    unfold rehashLoopWith
    by_cases hv : v = 0
    · subst hv
      rw [if_neg (by simp)]
      rw [List.filter_cons_of_neg (by simp)] at hnd hroom ⊢
      exact ih m hm hl hroom (fun w hw => hnew w (List.mem_cons_of_mem _ hw)) hnd
    · rw [if_pos hv]
      rw [List.filter_cons_of_pos (by simp [hv])] at hnd hroom ⊢
      rw [List.nodup_cons] at hnd
      rcases hm.insert hv (by omega) with ⟨hmem, _⟩ | ⟨_, m1, hrun, hm1, he1, hl1, hp1⟩
      · exact absurd hmem (hnew v (by simp) hv)
      · rw [hrun]
        have hlen1 := hp1.length_eq
        simp only [List.length_cons] at hlen1 hroom
        obtain ⟨m', hr, hm', he', hl', hp'⟩ := ih m1 hm1 (by omega) (by rw [he1]; omega) (by
          intro w hw hw0 hmem
          rw [hp1.mem_iff] at hmem
          rcases List.mem_cons.mp hmem with rfl | hmem
          · exact hnd.1 (by simp [hw, hw0])
          · exact hnew w (List.mem_cons_of_mem _ hw) hw0 hmem) hnd.2
        refine ⟨m', hr, hm', he'.trans he1, hl', hp'.trans ?_⟩
        exact (List.Perm.append_right _ hp1).trans (by
          rw [List.cons_append]
          exact List.perm_middle.symm)

theorem pow_half {e : Nat} (he : 1 ≤ e) : 2 ^ e / 2 = 2 ^ (e - 1) := by
  obtain ⟨k, rfl⟩ := Nat.exists_eq_succ_of_ne_zero (by omega : e ≠ 0)
  rw [Nat.pow_succ]
  simp

/-- Growing at half load keeps the contents. -/
theorem U16OK.grow {h : Nat → UInt64} {m : U16Set} (hm : U16OK h m) :
    ∃ m1, u16Grow h m = .ok m1 ∧ MsiOK 0 h m1 ∧ 1 ≤ m1.exp ∧ m1.exp ≤ 18 ∧ (m1.toList 0).Perm (m.toList 0) ∧
      (m1.len = (m1.toList 0).length ∨ m1.len = m.len) ∧ (m1.toList 0).length < 2 ^ m1.exp / 2 := by
  have hc := hm.card
  have hh := hm.half
  unfold u16Grow
  by_cases hg : m.len ≥ 2 ^ m.exp / 2
  · rw [if_pos hg]
    have hsmall : m.exp ≤ 17 := by
      by_contra hgt
      have : m.exp = 18 := by have := hm.small; omega
      rw [this] at hg
      have := hm.ge
      omega
    have hnew : Msi.new (0 : Nat) (m.exp + 1) =
        .ok { exp := m.exp + 1, len := 0, buf := List.replicate (2 ^ (m.exp + 1)) 0 } := by
      unfold Msi.new
      rw [if_neg (by omega)]
    rw [hnew]
    have h2 : 2 ^ (m.exp + 1) = 2 * 2 ^ m.exp := by rw [Nat.pow_succ]; omega
    have hpos := Nat.two_pow_pos m.exp
    have he1 := hm.one
    have hlt2 : 2 ≤ 2 ^ m.exp := by
      have : 2 ^ 1 ≤ 2 ^ m.exp := Nat.pow_le_pow_right (by omega) he1
      omega
    obtain ⟨m', hr, hm', he', hl', hp'⟩ := rehash_ok (h := h) m.buf _
      (MsiOK.empty 0 h (e := m.exp + 1) (by omega) 0) (by rw [toList_replicate]; rfl)
      (by rw [toList_replicate, h2]
          show 0 + (m.toList 0).length < _
          omega)
      (by rw [toList_replicate]; simp) hm.msi.nodup
    rw [toList_replicate, List.nil_append] at hp'
    have he'' : m'.exp = m.exp + 1 := he'
    refine ⟨m', hr, hm', by omega, by omega, hp', Or.inl hl', ?_⟩
    have hlen : (m'.toList 0).length = (m.toList 0).length := hp'.length_eq
    rw [hlen, he'', h2]
    omega
  · rw [if_neg hg]
    exact ⟨m, rfl, hm.msi, hm.one, hm.small, List.Perm.refl _, Or.inr rfl, by have := hm.le; omega⟩

/-- The counter equals the number of stored values. -/
def U16Exact (m : U16Set) : Prop := m.len = (m.toList 0).length

/-- Insertion of a proper value: always succeeds, and adds just that value. -/
theorem U16OK.insert {h : Nat → UInt64} {m : U16Set} (hm : U16OK h m) {v : Nat} (hv : v ≠ 0) (hlt : v < 65536) :
    ∃ m', u16InsertWith h v m = .ok m' ∧ U16OK h m' ∧ (∀ w, w ∈ m'.toList 0 ↔ w = v ∨ w ∈ m.toList 0) ∧
      (U16Exact m → U16Exact m') := by
  obtain ⟨m1, hg, hm1, ho1, hs1, hp1, hl1, hh1⟩ := hm.grow
  have hpos := Nat.two_pow_pos m1.exp
  have hle := hm.le
  have hge := hm.ge
  have hlen1 := hp1.length_eq
  rcases hm1.insert hv (by omega) with ⟨hmem, hrun⟩ | ⟨hmem, m', hrun, hm', he', hl', hp'⟩
  · refine ⟨m1, by unfold u16InsertWith; rw [hg]; simp only [Out.bind_ok]; rw [hrun]; rfl,
      ⟨hm1, hs1, ho1, by omega, by omega, ?_, by omega⟩, ?_, ?_⟩
    · intro w hw; exact hm.lt w (hp1.mem_iff.mp hw)
    · intro w
      rw [hp1.mem_iff]
      constructor
      · exact Or.inr
      · rintro (rfl | hw)
        · exact hp1.mem_iff.mp hmem
        · exact hw
    · unfold U16Exact; intro hx; omega
  · have hlen := hp'.length_eq
    rw [List.length_cons] at hlen
    refine ⟨m', by unfold u16InsertWith; rw [hg]; simp only [Out.bind_ok]; rw [hrun]; rfl,
      ⟨hm', by rw [he']; exact hs1, by rw [he']; exact ho1, by omega, by omega, ?_, by rw [he']; omega⟩, ?_, ?_⟩
    · intro w hw
      rcases List.mem_cons.mp (hp'.mem_iff.mp hw) with rfl | hw
      · exact hlt
      · exact hm.lt w (hp1.mem_iff.mp hw)
    · intro w
      rw [hp'.mem_iff, List.mem_cons, hp1.mem_iff]
    · unfold U16Exact; intro hx; omega

/-- "Inserting" 0 stores nothing, but counts. -/
theorem U16OK.insert_zero {h : Nat → UInt64} {m : U16Set} (hm : U16OK h m) (hx : U16Exact m) :
    ∃ m', u16InsertWith h 0 m = .ok m' ∧ U16OK h m' ∧ (∀ w, w ∈ m'.toList 0 ↔ w ∈ m.toList 0) := by
  obtain ⟨m1, hg, hm1, ho1, hs1, hp1, hl1, hh1⟩ := hm.grow
  have hpos := Nat.two_pow_pos m1.exp
  have hlen1 := hp1.length_eq
  unfold U16Exact at hx
  obtain ⟨b, hrun⟩ := hm1.insert_nil (by omega)
  have ht : ({ m1 with len := m1.len + 1 } : U16Set).toList 0 = m1.toList 0 := rfl
  refine ⟨{ m1 with len := m1.len + 1 }, by unfold u16InsertWith; rw [hg]; simp only [Out.bind_ok]; rw [hrun]; rfl,
    ⟨⟨hm1.exp, hm1.size, hm1.path⟩, hs1, ho1, ?_, ?_, ?_, ?_⟩, ?_⟩
  · rw [ht]; show _ ≤ m1.len + 1; omega
  · rw [ht]; show m1.len + 1 ≤ _; omega
  · rw [ht]; intro w hw; exact hm.lt w (hp1.mem_iff.mp hw)
  · rw [ht]; show _ ≤ 2 ^ m1.exp / 2; omega
  · intro w; rw [ht]; exact hp1.mem_iff

theorem U16OK.fresh (h : Nat → UInt64) : U16OK h U16Set.fresh ∧ U16Exact U16Set.fresh ∧ U16Set.fresh.toList 0 = [] := by
  have ht : U16Set.fresh.toList 0 = [] := toList_replicate 128 7 0
  refine ⟨⟨MsiOK.empty 0 h (e := 7) (by omega) 0, by decide, by decide, ?_, ?_, ?_, ?_⟩, ?_, ht⟩
  · rw [ht]; simp
  · rw [ht]; decide
  · rw [ht]; simp
  · rw [ht]; simp
  · unfold U16Exact; rw [ht]; rfl

theorem U16OK.reset {h : Nat → UInt64} {m : U16Set} (hm : U16OK h m) :
    U16OK h (u16Reset m) ∧ U16Exact (u16Reset m) ∧ (u16Reset m).toList 0 = [] := by
  have ht : (u16Reset m).toList 0 = [] := toList_replicate _ m.exp 0
  refine ⟨⟨MsiOK.empty 0 h (e := m.exp) hm.msi.exp 0, hm.small, hm.one, ?_, ?_, ?_, ?_⟩, ?_, ht⟩
  · rw [ht]; simp
  · rw [ht]; show 0 ≤ _; omega
  · rw [ht]; simp
  · rw [ht]; simp
  · unfold U16Exact; rw [ht]; rfl

theorem U16OK.new {h : Nat → UInt64} {m : U16Set} (hm : U16OK h m) :
    ∃ n, Msi.new 0 m.exp = .ok n ∧ U16OK h n ∧ U16Exact n ∧ n.toList 0 = [] := by
  refine ⟨u16Reset m, ?_, hm.reset⟩
  unfold Msi.new
  rw [if_neg (by have := hm.small; omega)]
  rfl

theorem U16OK.contains {m : U16Set} (hm : U16OK hashID m) (v : Nat) :
    u16Contains v m = .ok (decide (v ∈ m.toList 0)) := hm.msi.contains v hm.free

theorem U16OK.toArray {m : U16Set} (hx : U16Exact m) : u16ToArray m = .ok (m.toList 0) := by
  unfold u16ToArray
  rw [if_pos hx.symm]

theorem U16OK.insertAll {m : U16Set} (hm : U16OK hashID m) (hx : U16Exact m) : ∀ {l : List Nat}
    (_ : ∀ v ∈ l, v ≠ 0 ∧ v < 65536), ∃ m', u16InsertAll l m = .ok m' ∧ U16OK hashID m' ∧ U16Exact m' ∧
      ∀ w, w ∈ m'.toList 0 ↔ w ∈ l ∨ w ∈ m.toList 0 := by
  intro l
  induction l generalizing m with
  | nil => intro _; exact ⟨m, rfl, hm, hx, by simp⟩
  | cons v l ih =>
    intro hl
    obtain ⟨m1, h1, hm1, he1, hx1⟩ := hm.insert (hl v (by simp)).1 (hl v (by simp)).2
    obtain ⟨m2, h2, hm2, hx2, he2⟩ := ih hm1 (hx1 hx) (fun w hw => hl w (List.mem_cons_of_mem _ hw))
    refine ⟨m2, ?_, hm2, hx2, ?_⟩
    · unfold u16InsertAll u16Insert
      rw [h1]
      exact h2
    · intro w
      rw [he2, he1, List.mem_cons]
      tauto

end Flo
