import Verif.Spec.Messages
import Verif.Proofs.Report
import Verif.Proofs.LogReturn
import Verif.Proofs.QueryParse
import Verif.Proofs.QuerySem
/-!
# The messages of failing calls
-/
namespace Flo
open Spec

/-- `f` answers `a` and says `s`, flushed. -/
def Tells (f : WBuf → Out (α × WBuf)) (a : α) (s : Str) : Prop :=
  (s = [] ∧ ∀ b, f b = .ok (a, b)) ∨ (s ≠ [] ∧ ∃ g, Reports g s ∧ ∀ b, f b = (g b >>= fun b => .ok (a, b)))

theorem Reports.prints {f : WBuf → Out WBuf} {s : Str} (h : Reports f s) : Prints f s := by
  obtain ⟨g, hg, e⟩ := h
  rw [show f = fun b => g b >>= fun b => flushIgnore b from funext e]
  exact (hg.bind Prints.flush).text (by simp)

theorem Tells.text {f : WBuf → Out (α × WBuf)} {a : α} {s t : Str} (h : Tells f a s) (e : t = s) : Tells f a t := by
  rw [e]; exact h

theorem Tells.congr {f g : WBuf → Out (α × WBuf)} {a : α} {s : Str} (h : Tells f a s) (e : ∀ b, g b = f b) : Tells g a s := by
  rw [show g = f from funext e]; exact h

theorem Tells.silent {f : WBuf → Out (α × WBuf)} {a : α} (h : ∀ b, f b = .ok (a, b)) : Tells f a [] := Or.inl ⟨rfl, h⟩

theorem Tells.say {f : WBuf → Out (α × WBuf)} {p : WBuf → Out WBuf} {k : WBuf → Out (α × WBuf)} {a : α} {s t : Str}
    (hp : Reports p s) (hs : s ≠ []) (hk : Tells k a t) (e : ∀ b, f b = (p b >>= fun b => k b)) : Tells f a (s ++ t) := by
  refine Or.inr ⟨by simp [hs], ?_⟩
  rcases hk with ⟨rfl, hk⟩ | ⟨_, g, hg, hk⟩
  · rw [List.append_nil]
    exact ⟨p, hp, fun b => by rw [e]; simp only [hk]⟩
  · refine ⟨_, Reports.before hp.prints hg, fun b => ?_⟩
    rw [e]
    simp only [hk, bind_assoc]

/-- A silent or talking step followed by another one. -/
theorem Tells.andThen {f : WBuf → Out (α × WBuf)} {k : α → WBuf → Out (β × WBuf)} {h : WBuf → Out (β × WBuf)} {a : α} {c : β}
    {s t : Str} (hf : Tells f a s) (hk : Tells (k a) c t) (e : ∀ b, h b = (f b >>= fun r => k r.1 r.2)) : Tells h c (s ++ t) := by
  rcases hf with ⟨rfl, hf⟩ | ⟨hs, g, hg, hf⟩
  · refine hk.congr (fun b => ?_)
    rw [e, hf]; rfl
  · refine Tells.say hg hs hk (fun b => ?_)
    rw [e, hf]
    simp only [bind_assoc, Out.bind_ok]

theorem Tells.puts {f : WBuf → Out (α × WBuf)} {a : α} {s : Str} (h : Tells f a s) : Puts f a s := by
  rcases h with ⟨rfl, h⟩ | ⟨hs, g, hg, h⟩
  · exact ⟨fun b _ _ _ => ⟨b, h b, by simp⟩, fun b _ _ _ h => absurd rfl h, fun _ => h⟩
  · refine ⟨fun b h1 h2 h3 => ?_, fun b h1 h2 h3 _ => ?_, fun h => absurd h hs⟩
    · obtain ⟨b', e, e1, e2⟩ := hg.flushed b h1 h2 h3
      exact ⟨b', by rw [h, e]; rfl, by rw [e1, e2, List.append_nil]⟩
    · obtain ⟨b', e, e1, e2⟩ := hg.flushed b h1 h2 h3
      exact ⟨b', by rw [h, e]; rfl, e1⟩

/-! ## Single messages -/

theorem sayC_eq {s : Str} (h : (0 : UInt8) ∉ s) (fl : LFlags) (b : WBuf) : sayC s fl b = appendToBuffer s fl b := by
  unfold sayC appendCStrR appendToBufferR
  have e : (s ++ [0]).takeWhile (· ≠ 0) = s := by
    rw [List.takeWhile_append_of_pos]
    · simp
    · intro x hx
      simp only [ne_eq, decide_not, Bool.not_eq_eq_eq_not, Bool.not_true, decide_eq_false_iff_not]
      rintro rfl; exact h hx
  dsimp only
  rw [if_pos (by simp), e]
  simp only [bind_assoc, Out.bind_ok]
  cases appendToBuffer s fl b <;> rfl

theorem reports_sayC {s : Str} (h : (0 : UInt8) ∉ s) : Reports (fun b => sayC s flFlush b) s :=
  (Reports.last s).congr (fun b => sayC_eq h _ b)

theorem prints_sayC {s : Str} (h : (0 : UInt8) ∉ s) (fl : LFlags) : Prints (fun b => sayC s fl b) (s ++ lineEnd fl) :=
  (Prints.append s fl).congr (funext fun b => sayC_eq h _ b)

theorem prints_sayS (s : Str) (fl : LFlags) : Prints (fun b => sayS s fl b) (s ++ lineEnd fl) := Prints.append s fl

theorem warnings_zero : warnings 0 = [] := rfl

theorem warnings_succ (n : Nat) : warnings (n + 1) = warning ++ warnings n := by
  unfold warnings; rw [List.replicate_succ, List.flatten_cons]

theorem warnings_add (m n : Nat) : warnings (m + n) = warnings m ++ warnings n := by
  unfold warnings; rw [← List.flatten_append, List.replicate_append_replicate]

/-! ## Counting brackets -/

theorem count_drop_le {s : Str} {i j : Nat} (h : i ≤ j) : (s.drop j).count 91 ≤ (s.drop i).count 91 := by
  rw [show j = (j - i) + i by omega, ← List.drop_drop]
  refine (List.Sublist.count_le _ ?_)
  rw [List.drop_drop, Nat.add_comm, ← List.drop_drop]
  exact List.drop_sublist _ _

theorem count_drop_hit {s : Str} {i : Nat} (h : s[i]? = some 91) : (s.drop i).count 91 = 1 + (s.drop (i + 1)).count 91 := by
  obtain ⟨hi, e⟩ := List.getElem?_eq_some_iff.1 h
  rw [List.drop_eq_getElem_cons hi, e, List.count_cons_self]
  omega

theorem parseToken_ge {s : Str} {i j : Nat} {t : Str} (h : parseToken s i = .ok (t, j)) : i ≤ j := by
  unfold parseToken at h
  rw [Out.bind_eq_ok] at h
  obtain ⟨t', _, h⟩ := h
  injection h with h
  injection h with _ h
  rw [← h]
  exact Nat.le_trans (scanUntil_ge isTokenEnd _ _) (scanUntil_ge _ _ _)

/-- The brackets behind the place the attribute loop ends at. -/
def bracketsLeft (s : Str) : QRes (Nat × List Filter) → Nat
  | .fail _ => 0
  | .go (j, _) => (s.drop j).count 91

/-- What the attribute loop itself says at the end. -/
def attrEnd : QRes (Nat × List Filter) → Str
  | .fail st => reason st
  | .go _ => []

theorem attrFiltersE_tells (s : Str) (d : Dom) : ∀ (f idx : Nat) (fs : List Filter) (r : QRes (Nat × List Filter)),
    attrFilters s d f idx fs = .ok r → ∃ n, Tells (attrFiltersE s d f idx fs) r (warnings n ++ attrEnd r) ∧
      n + bracketsLeft s r ≤ (s.drop idx).count 91 := by
  intro f
  induction f with
  | zero => intro idx fs r h; simp [attrFilters] at h
  | succ f ih =>
    intro idx fs r h
    have quiet : ∀ {st : QStatus}, reason st = [] → (∀ b, attrFiltersE s d (f + 1) idx fs b = .ok (.fail st, b)) →
        r = .fail st → ∃ n, Tells (attrFiltersE s d (f + 1) idx fs) r (warnings n ++ attrEnd r) ∧
          n + bracketsLeft s r ≤ (s.drop idx).count 91 := by
      intro st h1 h2 h3
      subst h3
      exact ⟨0, (Tells.silent h2).text (by simp [warnings_zero, attrEnd, h1]), by simp [bracketsLeft]⟩
    have next : ∀ {j : Nat} {fs' : List Filter}, idx ≤ j →
        (∀ b, attrFiltersE s d (f + 1) idx fs b = attrFiltersE s d f j fs' b) → attrFilters s d f j fs' = .ok r →
        ∃ n, Tells (attrFiltersE s d (f + 1) idx fs) r (warnings n ++ attrEnd r) ∧
          n + bracketsLeft s r ≤ (s.drop idx).count 91 := by
      intro j fs' hj h2 h3
      obtain ⟨n, hn, hc⟩ := ih j fs' r h3
      exact ⟨n, hn.congr h2, Nat.le_trans hc (count_drop_le hj)⟩
    rw [attrFilters] at h
    cases hs : s[idx]? with
    | none =>
      rw [hs] at h
      injection h with h
      subst h
      refine ⟨0, (Tells.silent fun b => ?_).text (by simp [warnings_zero, attrEnd]), by simp [bracketsLeft]⟩
      rw [attrFiltersE, hs]
    | some c =>
      rw [hs] at h
      dsimp only at h
      by_cases hc : (c == 91 || c == 46 || c == 35) = true
      swap
      · rw [if_neg hc] at h
        injection h with h
        subst h
        refine ⟨0, (Tells.silent fun b => ?_).text (by simp [warnings_zero, attrEnd]), by simp [bracketsLeft]⟩
        rw [attrFiltersE, hs]
        dsimp only
        rw [if_neg hc]
      rw [if_pos hc] at h
      by_cases hm : fs.length ≥ maxFilters
      · rw [if_pos hm] at h
        injection h with h
        subst h
        refine ⟨0, ?_, by simp [bracketsLeft]⟩
        refine (Tells.say (Reports.last b!"Too many filters in a single element detected!\n") (by simp)
          (Tells.silent (f := fun b => .ok (.fail .tooManyFilters, b)) (fun b => rfl)) fun b => ?_).text
            (by rw [List.append_nil]; rfl)
        rw [attrFiltersE, hs]
        dsimp only
        rw [if_pos hc, if_pos hm]
        rfl
      rw [if_neg hm, Out.bind_eq_ok] at h
      obtain ⟨⟨token, i⟩, ht, h⟩ := h
      have hge : idx ≤ i := Nat.le_trans (scanUntil_ge isTagStartChar _ _) (parseToken_ge ht)
      have hE : ∀ b, attrFiltersE s d (f + 1) idx fs b = (
          let ch := currentChar s i
          if c == 46 || c == 35 then
            let key := if c == 46 then b!"class" else b!"id"
            let k := d.keyMap.contains key
            if k = 0 then .ok (.fail .notSeenBefore, b)
            else
              let v := d.valMap.contains token
              if v = 0 then .ok (.fail .notSeenBefore, b)
              else attrFiltersE s d f (if ch == 93 then i + 1 else i) (fs ++ [.prop k v]) b
          else if ch == 93 then
            let p := d.boolMap.contains token
            if p = 0 then .ok (.fail .notSeenBefore, b)
            else attrFiltersE s d f (i + 1) (fs ++ [.bool p]) b
          else if ch == cEq then
            let k := d.keyMap.contains token
            if k = 0 then .ok (.fail .notSeenBefore, b)
            else do
              let i := scanUntil isTagStartChar (s.drop (i + 1)) (i + 1)
              let (value, i) ← parseToken s i
              let ch := currentChar s i
              let v := d.valMap.contains value
              if v = 0 then .ok (.fail .notSeenBefore, b)
              else attrFiltersE s d f (if ch == 93 then i + 1 else i) (fs ++ [.prop k v]) b
          else do
            let b ← sayC b!"Unrecognized character in filtering function. Dropping a token!\n" flFlush b
            attrFiltersE s d f (if ch == 93 then i + 1 else i) fs b) := by
        intro b
        rw [attrFiltersE, hs]
        dsimp only
        rw [if_pos hc, if_neg hm, ht]
        rfl
      dsimp only at h hE
      by_cases h2 : (c == 46 || c == 35) = true
      · rw [if_pos h2] at h
        simp only [if_pos h2] at hE
        by_cases hk : d.keyMap.contains (if c == 46 then b!"class" else b!"id") = 0
        · rw [if_pos hk] at h
          simp only [if_pos hk] at hE
          injection h with h
          exact quiet rfl hE h.symm
        · rw [if_neg hk] at h
          simp only [if_neg hk] at hE
          by_cases hv : d.valMap.contains token = 0
          · rw [if_pos hv] at h
            simp only [if_pos hv] at hE
            injection h with h
            exact quiet rfl hE h.symm
          · rw [if_neg hv] at h
            simp only [if_neg hv] at hE
            exact next (by split <;> omega) hE h
      rw [if_neg h2] at h
      simp only [if_neg h2] at hE
      by_cases h3 : (currentChar s i == 93) = true
      · rw [if_pos h3] at h
        simp only [if_pos h3] at hE
        by_cases hb : d.boolMap.contains token = 0
        · rw [if_pos hb] at h
          simp only [if_pos hb] at hE
          injection h with h
          exact quiet rfl hE h.symm
        · rw [if_neg hb] at h
          simp only [if_neg hb] at hE
          exact next (by omega) hE h
      rw [if_neg h3] at h
      simp only [if_neg h3] at hE
      by_cases h4 : (currentChar s i == cEq) = true
      · rw [if_pos h4] at h
        simp only [if_pos h4] at hE
        by_cases hk : d.keyMap.contains token = 0
        · rw [if_pos hk] at h
          simp only [if_pos hk] at hE
          injection h with h
          exact quiet rfl hE h.symm
        · rw [if_neg hk, Out.bind_eq_ok] at h
          simp only [if_neg hk] at hE
          obtain ⟨⟨value, i2⟩, ht2, h⟩ := h
          have hge2 : i + 1 ≤ i2 := Nat.le_trans (scanUntil_ge isTagStartChar _ _) (parseToken_ge ht2)
          dsimp only at h
          simp only [ht2, Out.bind_ok] at hE
          by_cases hv : d.valMap.contains value = 0
          · rw [if_pos hv] at h
            simp only [if_pos hv] at hE
            injection h with h
            exact quiet rfl hE h.symm
          · rw [if_neg hv] at h
            simp only [if_neg hv] at hE
            exact next (by split <;> omega) hE h
      rw [if_neg h4] at h
      simp only [if_neg h4] at hE
      simp only [if_neg h3] at h
      have hc91 : c = 91 := by
        rw [Bool.or_assoc, Bool.or_eq_true] at hc
        rcases hc with hc | hc
        · exact eq_of_beq hc
        · exact absurd hc h2
      have hlt : idx < i := by
        refine Nat.lt_of_lt_of_le ?_ (parseToken_ge ht)
        obtain ⟨hi, e⟩ := List.getElem?_eq_some_iff.1 hs
        rw [List.drop_eq_getElem_cons hi, e]
        have hn := startChar_facts c hc
        unfold scanUntil scanWhile
        rw [if_pos (by simp [hn])]
        exact scanUntil_ge isTagStartChar _ _
      rw [hc91] at hs
      obtain ⟨n, hn, hcount⟩ := ih _ _ r h
      refine ⟨n + 1, ?_, ?_⟩
      · refine (Tells.say (reports_sayC (s := b!"Unrecognized character in filtering function. Dropping a token!\n") (by decide))
          (by simp) hn hE).text ?_
        rw [warnings_succ, List.append_assoc]
        rfl
      · have := count_drop_le (s := s) (show idx + 1 ≤ i from hlt)
        rw [count_drop_hit hs]
        omega

/-! ## The loops -/

theorem leadFilter_ge {s : Str} {d : Dom} {idx j : Nat} {fs : List Filter} (h : leadFilter s d idx = .ok (.go (j, fs))) :
    idx ≤ j := by
  unfold leadFilter at h
  dsimp only at h
  split at h
  · rw [Out.bind_eq_ok] at h
    obtain ⟨t, _, h⟩ := h
    split at h
    · cases h
    · injection h with h
      injection h with h
      injection h with h _
      rw [← h]; exact scanUntil_ge _ _ _
  · split at h
    · injection h with h
      injection h with h
      injection h with h _
      rw [← h]; exact scanUntil_ge _ _ _
    · injection h with h
      injection h with h
      injection h with h _
      omega

/-- What `getQueryResults` itself says at the end. -/
def loopEnd : QRes U16Set → Str
  | .fail st => reason st
  | .go _ => []

theorem queryLoopE_tells (pun : Nat → Nat) (s : Str) (d : Dom) : ∀ (f idx : Nat) (c : Combinator) (set : U16Set) (r : QRes U16Set),
    queryLoop pun s d f idx c set = .ok r → ∃ n, Tells (queryLoopE pun s d f idx c set) r (warnings n ++ loopEnd r) ∧
      n ≤ (s.drop idx).count 91 := by
  intro f
  induction f with
  | zero => intro idx c set r h; simp [queryLoop] at h
  | succ f ih =>
    intro idx c set r h
    rw [queryLoop] at h
    by_cases hi : idx < s.length
    swap
    · rw [if_neg hi] at h
      injection h with h
      subst h
      refine ⟨0, (Tells.silent fun b => ?_).text (by simp [warnings_zero, loopEnd]), by omega⟩
      rw [queryLoopE, if_neg hi]
    rw [if_pos hi, Out.bind_eq_ok] at h
    obtain ⟨l, hl, h⟩ := h
    cases l with
    | fail st =>
      injection h with h
      subst h
      have := leadFilter_status hl
      subst this
      refine ⟨0, (Tells.silent fun b => ?_).text (by simp [warnings_zero, loopEnd, reason]), by omega⟩
      rw [queryLoopE, if_pos hi, hl]
      rfl
    | go x =>
      obtain ⟨j, fs⟩ := x
      have hj := leadFilter_ge hl
      dsimp only at h
      rw [Out.bind_eq_ok] at h
      obtain ⟨a, ha, h⟩ := h
      obtain ⟨n, hn, hcount⟩ := attrFiltersE_tells s d _ _ _ _ ha
      have hle := count_drop_le (s := s) hj
      have hE : ∀ b, queryLoopE pun s d (f + 1) idx c set b = (attrFiltersE s d (s.length + 1) j fs b >>= fun x =>
          match x with
          | (.fail st, b) => .ok (.fail st, b)
          | (.go (idx, fs), b) =>
            if fs.length < 1 then do
              let b ← sayC b!"Did not receive any filters in the css query\n" flFlush b
              .ok (.fail .invalidElement, b)
            else do
              let set ← applyCombinator pun c fs d set
              let (idx, c) := swoop (s.drop idx) idx cSp
              queryLoopE pun s d f idx (combinatorOf c) set b) := by
        intro b
        rw [queryLoopE, if_pos hi, hl]
        rfl
      cases a with
      | fail st =>
        injection h with h
        subst h
        refine ⟨n, ?_, by omega⟩
        refine (hn.andThen (k := fun r b => match r with
          | .fail st => .ok ((QRes.fail st : QRes U16Set), b)
          | .go _ => .hang) (c := (QRes.fail st : QRes U16Set)) (t := []) (Tells.silent fun b => rfl) fun b => ?_).text (by rw [List.append_nil]; rfl)
        rw [hE]
        rcases hn with ⟨_, e⟩ | ⟨_, g, _, e⟩
        · rw [e]; rfl
        · rw [e]; simp only [bind_assoc, Out.bind_ok]
      | go x =>
        obtain ⟨j2, fs2⟩ := x
        dsimp only at h
        have hcj : n + (s.drop j2).count 91 ≤ (s.drop idx).count 91 := Nat.le_trans hcount hle
        by_cases hf : fs2.length < 1
        · rw [if_pos hf] at h
          injection h with h
          subst h
          refine ⟨n, ?_, by omega⟩
          refine (hn.andThen (k := fun r b => match r with
            | .fail st => .ok ((QRes.fail st : QRes U16Set), b)
            | .go (_, fs) => if fs.length < 1 then do
                let b ← sayC b!"Did not receive any filters in the css query\n" flFlush b
                .ok (.fail .invalidElement, b)
              else .hang) (c := (QRes.fail .invalidElement : QRes U16Set)) (t := b!"Did not receive any filters in the css query\n") ?_ fun b => ?_).text
              (by rw [show attrEnd (.go (j2, fs2)) = [] from rfl, List.append_nil]; rfl)
          · refine (Tells.say (reports_sayC (s := b!"Did not receive any filters in the css query\n") (by decide)) (by simp)
              (Tells.silent (f := fun b => .ok ((QRes.fail .invalidElement : QRes U16Set), b)) (fun b => rfl)) fun b => ?_).text (by rw [List.append_nil])
            dsimp only
            rw [if_pos hf]
          · rw [hE]
            rcases hn with ⟨_, e⟩ | ⟨_, g, _, e⟩
            · rw [e]; simp only [Out.bind_ok, if_pos hf]
            · rw [e]; simp only [bind_assoc, Out.bind_ok, if_pos hf]
        · rw [if_neg hf, Out.bind_eq_ok] at h
          obtain ⟨set2, hs2, h⟩ := h
          have hsw := swoop_ge (s.drop j2) j2 cSp
          obtain ⟨m, hm, hmc⟩ := ih _ _ _ _ h
          have := count_drop_le (s := s) hsw
          refine ⟨n + m, ?_, by omega⟩
          refine (hn.andThen (k := fun r b => match r with
            | .fail st => .ok ((QRes.fail st : QRes U16Set), b)
            | .go (idx, fs) => if fs.length < 1 then .hang
              else queryLoopE pun s d f (swoop (s.drop idx) idx cSp).1 (combinatorOf (swoop (s.drop idx) idx cSp).2) set2 b)
              (c := r) (t := warnings m ++ loopEnd r) ?_ fun b => ?_).text
              (by rw [show attrEnd (.go (j2, fs2)) = [] from rfl, List.append_nil, warnings_add, List.append_assoc])
          · refine hm.congr (fun b => ?_)
            dsimp only
            rw [if_neg hf]
          · rw [hE]
            rcases hn with ⟨_, e⟩ | ⟨_, g, _, e⟩
            · rw [e]; simp only [Out.bind_ok, if_neg hf, hs2]
            · rw [e]; simp only [bind_assoc, Out.bind_ok, if_neg hf, hs2]

theorem queryEnd_eq {st : QStatus} (h : st ≠ .success) :
    queryEnd st = reason st ++ queryStatusName st ++ b!"Unable get query results!\n" := by
  cases st <;> first | rfl | exact absurd rfl h

theorem queryingStatus_name (st : QStatus) : queryingStatusToString st.code = .ok (queryStatusName st) := by
  cases st <;> rfl

theorem count_getQuery {css : Str} {i : Nat} :
    ((css.drop i).takeWhile (· != 44)).count 91 + (css.drop (i + ((css.drop i).takeWhile (· != 44)).length + 1)).count 91 ≤
      (css.drop i).count 91 := by
  conv_rhs => rw [← List.takeWhile_append_dropWhile (p := (· != 44)) (l := css.drop i), List.count_append]
  refine Nat.add_le_add_left ?_ _
  refine (List.Sublist.count_le _ ?_)
  have : (css.drop (i + ((css.drop i).takeWhile (· != 44)).length + 1)) = ((css.drop i).dropWhile (· != 44)).drop 1 := by
    rw [show i + ((css.drop i).takeWhile (· != 44)).length + 1 = i + (((css.drop i).takeWhile (· != 44)).length + 1) by omega,
      ← List.drop_drop, ← List.drop_drop]
    congr 1
    conv_lhs => rw [← List.takeWhile_append_dropWhile (p := (· != 44)) (l := css.drop i)]
    rw [List.takeWhile_append_dropWhile]
    conv_lhs => enter [2]; rw [← List.takeWhile_append_dropWhile (p := (· != 44)) (l := css.drop i)]
    rw [List.drop_left]
  rw [this]
  exact List.drop_sublist _ _

theorem selectLoopE_tells (pun : Nat → Nat) (css : Str) (d : Dom) : ∀ (f start : Nat) (set results : U16Set) (r : QRes U16Set),
    selectLoop pun css d f start set results = .ok r → r ≠ .fail .success → ∃ n,
      Tells (selectLoopE pun css d f start set results) r (warnings n ++ queryEnd (QRes.status r)) ∧ n ≤ (css.drop start).count 91 := by
  intro f
  induction f with
  | zero => intro start set results r h; simp [selectLoop] at h
  | succ f ih =>
    intro start set results r h hr
    rw [selectLoop] at h
    by_cases hi : start < css.length
    swap
    · rw [if_neg hi] at h
      injection h with h
      subst h
      refine ⟨0, (Tells.silent fun b => ?_).text (by simp [warnings_zero, QRes.status, queryEnd]), by omega⟩
      rw [selectLoopE, if_neg hi]
    rw [if_pos hi] at h
    dsimp only at h
    rw [Out.bind_eq_ok] at h
    obtain ⟨q, hq, h⟩ := h
    obtain ⟨n, hn, hcount⟩ := queryLoopE_tells pun _ d _ _ _ _ _ hq
    have hcount' : n ≤ ((css.drop start).takeWhile (· != 44)).count 91 :=
      Nat.le_trans hcount (List.Sublist.count_le _ (List.drop_sublist _ _))
    have hcg := count_getQuery (css := css) (i := start)
    have hE : ∀ b, selectLoopE pun css d (f + 1) start set results b =
        (getQueryResultsE pun ((css.drop start).takeWhile (· != 44)) d set b >>= fun x =>
          match x with
          | (.fail st, b) => do
            let text ← queryingStatusToString st.code
            let b ← sayS text ⟨false, false⟩ b
            let b ← sayC b!"Unable get query results!\n" ⟨false, false⟩ b
            let b ← flushIgnore b
            .ok (.fail st, b)
          | (.go set, b) => do
            let results ← u16InsertAll (set.toList 0) results
            selectLoopE pun css d f (start + ((css.drop start).takeWhile (· != 44)).length + 1) (u16Reset set) results b) := by
      intro b
      rw [selectLoopE, if_pos hi]
      rfl
    have hn' : Tells (getQueryResultsE pun ((css.drop start).takeWhile (· != 44)) d set) q (warnings n ++ loopEnd q) := hn
    cases q with
    | fail st =>
      injection h with h
      subst h
      have hst : st ≠ .success := fun e => hr (by rw [e])
      refine ⟨n, ?_, by omega⟩
      refine (hn'.andThen (k := fun r b => match r with
        | .fail st => do
          let text ← queryingStatusToString st.code
          let b ← sayS text ⟨false, false⟩ b
          let b ← sayC b!"Unable get query results!\n" ⟨false, false⟩ b
          let b ← flushIgnore b
          .ok ((QRes.fail st : QRes U16Set), b)
        | .go _ => .hang) (c := (QRes.fail st : QRes U16Set)) (t := queryStatusName st ++ b!"Unable get query results!\n") ?_ fun b => ?_).text ?_
      · refine (Tells.say (Reports.mk ((prints_sayS (queryStatusName st) ⟨false, false⟩).bind
          (prints_sayC (s := b!"Unable get query results!\n") (by decide) ⟨false, false⟩))) (by cases st <;> simp [lineEnd, queryStatusName])
          (Tells.silent (f := fun b => .ok ((QRes.fail st : QRes U16Set), b)) (fun b => rfl)) fun b => ?_).text (by simp [lineEnd])
        dsimp only
        rw [queryingStatus_name]
        simp only [bind_assoc, Out.bind_ok]
      · rw [hE]
        rcases hn' with ⟨_, e⟩ | ⟨_, g, _, e⟩
        · rw [e]; rfl
        · rw [e]; simp only [bind_assoc, Out.bind_ok]
      · rw [show QRes.status (.fail st : QRes U16Set) = st from rfl, queryEnd_eq hst]
        simp only [loopEnd, List.append_assoc]
    | go set2 =>
      dsimp only at h
      rw [Out.bind_eq_ok] at h
      obtain ⟨res2, hres, h⟩ := h
      obtain ⟨m, hm, hmc⟩ := ih _ _ _ _ h hr
      refine ⟨n + m, ?_, by omega⟩
      refine (hn'.andThen (k := fun r b => match r with
        | .fail _ => .hang
        | .go set => selectLoopE pun css d f (start + ((css.drop start).takeWhile (· != 44)).length + 1) (u16Reset set) res2 b)
          (c := r) (t := warnings m ++ queryEnd (QRes.status r)) (hm.congr fun b => rfl) fun b => ?_).text ?_
      · rw [hE]
        rcases hn' with ⟨_, e⟩ | ⟨_, g, _, e⟩
        · rw [e]; simp only [Out.bind_ok, hres]
        · rw [e]; simp only [bind_assoc, Out.bind_ok, hres]
      · rw [show loopEnd (.go set2) = [] from rfl, List.append_nil, warnings_add, List.append_assoc]

end Flo
