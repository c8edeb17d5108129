import Verif.Spec.Path
import Verif.Props.Strings
import Mathlib.Data.List.Induction
/-!
# Directory creation (C52)
-/
namespace Flo
open Spec

theorem isDirPrefix_iff (path d : Str) :
    IsDirPrefix path d ↔ d = path.take d.length ∧ path[d.length]? = some cSlash := by
  constructor
  · rintro ⟨rest, rfl⟩
    simp
  · intro ⟨h1, h2⟩
    obtain ⟨hlt, he⟩ := List.getElem?_eq_some_iff.1 h2
    refine ⟨path.drop (d.length + 1), ?_⟩
    conv_lhs => rw [← List.take_append_drop d.length path]
    rw [← h1, List.drop_eq_getElem_cons hlt, he]

theorem cString_set (path : Str) (k : Nat) (h0 : 0 ∉ path) (hk : k < path.length) :
    cString ((path ++ [0]).set k 0) = path.take k := by
  unfold cString
  rw [List.set_append_left _ _ hk, List.set_eq_take_append_cons_drop, if_pos hk]
  have ht := List.takeWhile_append_of_pos (p := (fun c : UInt8 => decide (c ≠ 0))) (l₁ := path.take k)
    (l₂ := 0 :: path.drop (k + 1) ++ [0]) (fun c hc => by
      have : c ≠ 0 := fun h => h0 (h ▸ List.mem_of_mem_take hc)
      simpa using this)
  rw [List.append_assoc, ht]
  simp

theorem storeByte_ok (buf : List UInt8) (k : Nat) (c : UInt8) (h : k < buf.length) :
    storeByte buf k c = .ok (buf.set k c) := by
  unfold storeByte
  rw [if_pos ⟨by omega, by omega⟩]
  simp

theorem pathLoop_spec (path : Str) (h0 : 0 ∉ path) : ∀ (f n : Nat) (i : Int), path.length ≤ f + n →
    i ≠ 0 → IsFirst path cSlash n i →
    ∃ ds, pathLoop path (f + 1) (path ++ [0]) i = .ok ds ∧ ds.Pairwise (fun d e => d.length < e.length) ∧
      ∀ d, d ∈ ds ↔ IsDirPrefix path d ∧ n ≤ d.length := by
  have hnone : ∀ (n : Nat), (∀ j : Nat, n ≤ j → path[j]? ≠ some cSlash) →
      ∀ d, ¬ (IsDirPrefix path d ∧ n ≤ d.length) := by
    intro n h d ⟨h1, h2⟩
    exact h _ h2 ((isDirPrefix_iff path d).1 h1).2
  have hneg : ∀ (f n : Nat), (∀ j : Nat, n ≤ j → path[j]? ≠ some cSlash) →
      ∃ ds, pathLoop path (f + 1) (path ++ [0]) (-1) = .ok ds ∧ ds.Pairwise (fun d e => d.length < e.length) ∧
      ∀ d, d ∈ ds ↔ IsDirPrefix path d ∧ n ≤ d.length := by
    intro f n h
    refine ⟨[], ?_, List.Pairwise.nil, fun d => ?_⟩
    · unfold pathLoop; rw [if_neg (by omega)]
    · constructor
      · intro h; simp at h
      · intro hd; exact absurd hd (hnone n h d)
  intro f
  induction f with
  | zero =>
    intro n i hf _ hF
    rcases hF with ⟨rfl, h⟩ | ⟨k, rfl, h1, h2, _⟩
    · exact hneg 0 n h
    · rw [List.getElem?_eq_none (by omega)] at h2; cases h2
  | succ f ih =>
    intro n i hf hi hF
    rcases hF with ⟨rfl, h⟩ | ⟨k, rfl, h1, h2, h3⟩
    · exact hneg _ n h
    · obtain ⟨hk, he⟩ := List.getElem?_eq_some_iff.1 h2
      have hkb : k < (path ++ [0]).length := by simp; omega
      unfold pathLoop
      rw [if_pos (by omega), storeByte_ok _ _ _ hkb]
      simp only [Out.bind_ok]
      have hm : mkdirArg ((path ++ [0]).set k 0) = .ok (path.take k) := by
        unfold mkdirArg
        rw [if_pos (by rw [List.set_append_left _ _ hk]; simp), cString_set path k h0 hk]
      rw [hm]
      simp only [Out.bind_ok]
      rw [storeByte_ok _ _ _ (by simpa using hkb)]
      simp only [Out.bind_ok]
      have hback : ((path ++ [0]).set k 0).set k cSlash = path ++ [0] := by
        rw [List.set_set, List.set_append_left _ _ hk, ← he, List.set_getElem_self]
      rw [hback]
      obtain ⟨j, hj, hjF⟩ := C53_firstOccurenceOfFrom path cSlash (k + 1)
      push_cast at hj
      rw [hj]
      simp only [Out.bind_ok]
      have hj0 : j ≠ 0 := by
        rcases hjF with ⟨rfl, _⟩ | ⟨m, rfl, h, _⟩
        · decide
        · omega
      obtain ⟨ds, hds, hP, hM⟩ := ih (k + 1) j (by omega) hj0 hjF
      rw [hds]
      simp only [Out.bind_ok]
      have hlen : (path.take k).length = k := by simp; omega
      refine ⟨_, rfl, List.pairwise_cons.2 ⟨fun d hd => ?_, hP⟩, fun d => ?_⟩
      · rw [hlen]; exact ((hM d).1 hd).2
      · rw [List.mem_cons, hM]
        constructor
        · rintro (rfl | ⟨h4, h5⟩)
          · refine ⟨(isDirPrefix_iff _ _).2 ?_, by omega⟩
            rw [hlen]; exact ⟨rfl, h2⟩
          · exact ⟨h4, by omega⟩
        · intro ⟨h4, h5⟩
          obtain ⟨h6, h7⟩ := (isDirPrefix_iff _ _).1 h4
          by_cases hd : k < d.length
          · exact .inr ⟨h4, hd⟩
          · left
            by_cases hdk : d.length = k
            · rw [h6, hdk]
            · exact absurd h7 (h3 _ h5 (by omega))

/-- **C52 (partial)**: for a path that does not start with a slash, `mkdir` is called on exactly the directories of the path,
each once, parents before children — or the scratch arena has not even room for a copy of the path.  *Missing*: absolute
paths, see `C52_violated`. -/
theorem C52_mkdir_calls_partial (path : Str) (scratch : Arena) (h0 : 0 ∉ path) (hrel : path[0]? ≠ some cSlash) :
    (∃ ds, createPath path scratch = .ok ds ∧ ds.Pairwise (fun d e => d.length < e.length) ∧
      ∀ d, d ∈ ds ↔ IsDirPrefix path d) ∨
    (createPath path scratch = .longjmp ∧ scratch.stop - scratch.beg < path.length + 1) := by
  obtain ⟨i, hi, hF⟩ := C53_firstOccurenceOfFrom path cSlash 0
  unfold createPath
  have hi' : firstOccurenceOfFrom path cSlash 0 = .ok i := hi
  rw [hi']
  simp only [Out.bind_ok]
  have hi0 : i ≠ 0 := by
    rcases hF with ⟨rfl, _⟩ | ⟨k, rfl, _, h2, _⟩
    · decide
    · intro h
      have : k = 0 := by omega
      exact hrel (this ▸ h2)
  by_cases hs : i ≥ 0
  · rw [if_pos hs]
    have hpad : arenaPadding scratch.beg 1 = 0 := by rw [arenaPadding_eq _ _ isAlign_one]; exact Int.emod_one _
    unfold arenaAlloc
    rw [hpad]
    dsimp only
    by_cases hc : ((path.length : Int) + 1) > scratch.stop - scratch.beg
    · right
      rw [if_pos (by rw [Int.tdiv_one]; omega)]
      exact ⟨rfl, by omega⟩
    · left
      rw [if_neg (by rw [Int.tdiv_one]; omega)]
      simp only [Out.bind_ok]
      cases hp : path.length with
      | zero =>
        have : path = [] := List.length_eq_zero_iff.1 hp
        subst this
        rcases hF with ⟨rfl, _⟩ | ⟨k, rfl, _, h2, _⟩
        · omega
        · simp at h2
      | succ m =>
        obtain ⟨ds, h1, h2, h3⟩ := pathLoop_spec path h0 (m + 1) 0 i (by omega) hi0 hF
        exact ⟨ds, h1, h2, fun d => by rw [h3 d]; simp⟩
  · left
    rw [if_neg hs]
    rcases hF with ⟨rfl, h⟩ | ⟨k, rfl, _, h2, _⟩
    · refine ⟨[], rfl, List.Pairwise.nil, fun d => ?_⟩
      constructor
      · intro h; simp at h
      · intro hd; exact absurd ((isDirPrefix_iff path d).1 hd).2 (h _ (by omega))
    · omega

theorem compsFrom_slash (d rest : Str) : ∀ cur, compsFrom cur (d ++ cSlash :: rest) = compsFrom cur d ++ comps rest := by
  induction d with
  | nil =>
    intro cur
    simp only [List.nil_append, compsFrom, if_true, comps]
    by_cases h : cur = []
    · simp [h]
    · simp [h]
  | cons c d ih =>
    intro cur
    simp only [List.cons_append, compsFrom]
    by_cases hc : c = cSlash
    · simp only [hc, if_true]
      by_cases h : cur = []
      · simp only [h, if_true]; exact ih []
      · simp only [h, if_false]; rw [ih []]; rfl
    · simp only [hc, if_false]
      exact ih _

theorem comps_slash (d rest : Str) : comps (d ++ cSlash :: rest) = comps d ++ comps rest := compsFrom_slash d rest []

theorem compsFrom_word (w : Str) (h : cSlash ∉ w) : ∀ cur, compsFrom cur w = if cur ++ w = [] then [] else [cur ++ w] := by
  induction w with
  | nil => intro cur; simp [compsFrom]
  | cons c w ih =>
    intro cur
    have hc : c ≠ cSlash := fun e => h (by simp [e])
    simp only [compsFrom, hc, if_false]
    rw [ih (fun e => h (by simp [e]))]
    simp

theorem comps_word (w : Str) (h : cSlash ∉ w) : comps w = if w = [] then [] else [w] := by
  have := compsFrom_word w h []
  simpa [comps] using this

/-- A string is a word, or ends in a slash and a word. -/
theorem last_word (d : Str) : cSlash ∉ d ∨ ∃ d' w, d = d' ++ cSlash :: w ∧ cSlash ∉ w := by
  induction d with
  | nil => left; simp
  | cons c d ih =>
    rcases ih with h | ⟨d', w, rfl, hw⟩
    · by_cases hc : c = cSlash
      · right; exact ⟨[], d, by simp [hc], h⟩
      · left; intro hm; rcases List.mem_cons.1 hm with e | e
        · exact hc e.symm
        · exact h e
    · right; exact ⟨c :: d', w, rfl, hw⟩

theorem Spec.Plain.prefix {path d : Str} (h : Plain path) (hd : IsDirPrefix path d) : Plain d := by
  obtain ⟨rest, rfl⟩ := hd
  intro w hw
  exact h w (by rw [comps_slash]; simp [hw])

theorem mkdirs_snoc (fs : FS) (xs : List Str) (d : Str) : fs.mkdirs (xs ++ [d]) = (fs.mkdirs xs).mkdir d := by
  unfold FS.mkdirs; simp

theorem mkdirs_other (fs : FS) (xs : List Str) : (fs.mkdirs xs).other = fs.other := by
  induction xs using List.reverseRecOn with
  | nil => rfl
  | append_singleton xs d ih => rw [mkdirs_snoc]; exact ih

theorem mkdirs_created (fs : FS) (path : Str) (hp : Plain path) (hroot : fs.dir [])
    (hfree : ∀ d, IsDirPrefix path d → ¬ fs.other (comps d)) (ds : List Str) :
    ds.Pairwise (fun d e => d.length < e.length) → (∀ d ∈ ds, IsDirPrefix path d) →
    (∀ d e, IsDirPrefix path d → e ∈ ds → d.length < e.length → d ∈ ds) →
    ∀ d ∈ ds, (fs.mkdirs ds).dir (comps d) := by
  induction ds using List.reverseRecOn with
  | nil => intro _ _ _ d hd; simp at hd
  | append_singleton xs e ih =>
    intro hP hD hC
    obtain ⟨hP1, _, hP3⟩ := List.pairwise_append.1 hP
    have ih' := ih hP1 (fun d hd => hD d (by simp [hd])) (fun d e' hd he hlt => by
      have := hC d e' hd (by simp [he]) hlt
      rcases List.mem_append.1 this with h | h
      · exact h
      · simp at h
        subst h
        have := hP3 e' he d (by simp)
        omega)
    intro d hd
    rw [mkdirs_snoc]
    rcases List.mem_append.1 hd with h | h
    · exact .inl (ih' d h)
    · simp at h
      subst h
      have hdp := hD d hd
      have hroot' : (fs.mkdirs xs).dir [] := by
        clear ih ih' hP hD hC hP1 hP3 hd
        induction xs using List.reverseRecOn with
        | nil => exact hroot
        | append_singleton xs e ih => rw [mkdirs_snoc]; exact .inl ih
      have hmk : ∀ p w, comps d = p ++ [w] → (fs.mkdirs xs).dir p → ((fs.mkdirs xs).mkdir d).dir (comps d) := by
        intro p w hc hpd
        refine .inr ⟨hp.prefix hdp, rfl, by rw [hc]; simp, by rw [hc]; simpa using hpd, ?_⟩
        rw [mkdirs_other]
        exact hfree d hdp
      rcases last_word d with hw | ⟨d', w, he, hw⟩
      · rw [comps_word d hw]
        by_cases h : d = []
        · rw [if_pos h]; exact .inl hroot'
        · rw [if_neg h]
          have hc : comps d = [] ++ [d] := by rw [comps_word d hw, if_neg h]; rfl
          have := hmk [] d hc hroot'
          rw [hc] at this
          exact this
      · obtain ⟨rest, hrest⟩ := hdp
        have hd'p : IsDirPrefix path d' := ⟨w ++ cSlash :: rest, by rw [hrest, he]; simp⟩
        have hlt : d'.length < d.length := by rw [he]; simp
        have hmem : d' ∈ xs := by
          have := hC d' d hd'p hd hlt
          rcases List.mem_append.1 this with h | h
          · exact h
          · simp at h; rw [h] at hlt; omega
        have hdir := ih' d' hmem
        have hc : comps d = comps d' ++ comps w := by rw [he, comps_slash]
        rw [comps_word w hw] at hc
        by_cases h : w = []
        · rw [if_pos h, List.append_nil] at hc
          rw [hc]; exact .inl hdir
        · rw [if_neg h] at hc
          exact hmk _ w hc hdir

/-- **C52 (partial)**: consequently every directory of a relative path exists afterwards, provided nothing that is not a directory
is in the way. -/
theorem C52_created_partial (path : Str) (scratch : Arena) (ds : List Str) (h0 : 0 ∉ path) (hrel : path[0]? ≠ some cSlash)
    (hp : Plain path) (hr : createPath path scratch = .ok ds) (fs : FS) (hroot : fs.dir [])
    (hfree : ∀ d, IsDirPrefix path d → ¬ fs.other (comps d)) :
    ∀ d, IsDirPrefix path d → (fs.mkdirs ds).dir (comps d) := by
  rcases C52_mkdir_calls_partial path scratch h0 hrel with ⟨ds', h1, h2, h3⟩ | ⟨h1, _⟩
  · rw [hr] at h1
    cases h1
    intro d hd
    exact mkdirs_created fs path hp hroot hfree ds h2 (fun d hd => (h3 d).1 hd) (fun d e hd _ _ => (h3 d).2 hd) d ((h3 d).2 hd)
  · rw [hr] at h1; cases h1

/-- A concrete relative path. -/
theorem C52_example : createPath b!"out//site/index.html" ⟨0, 100, fun _ => 0⟩ = .ok [b!"out", b!"out/", b!"out//site"] := by
  decide +kernel

example : comps b!"out//site/index.html" = [b!"out", b!"site", b!"index.html"] := by decide +kernel

/-- **C52 is violated** for absolute paths: the loop does not run when the first slash is at position 0, so no directory is
made at all. -/
theorem C52_violated : IsDirPrefix b!"/tmp/site/index.html" b!"/tmp/site" ∧
    ∀ scratch, (0 ≤ scratch.beg ∧ scratch.beg + 100 ≤ scratch.stop) → createPath b!"/tmp/site/index.html" scratch = .ok [] := by
  refine ⟨⟨b!"index.html", rfl⟩, fun scratch h => ?_⟩
  unfold createPath
  have h1 : firstOccurenceOfFrom b!"/tmp/site/index.html" cSlash 0 = .ok 0 := by decide +kernel
  rw [h1]
  simp only [Out.bind_ok]
  rw [if_pos (by decide)]
  have hpad : arenaPadding scratch.beg 1 = 0 := by rw [arenaPadding_eq _ _ isAlign_one]; exact Int.emod_one _
  unfold arenaAlloc
  rw [hpad]
  dsimp only
  rw [if_neg (by rw [Int.tdiv_one]; simp; omega)]
  rfl

end Flo
