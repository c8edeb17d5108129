import Verif.Proofs.RefTokens
import Verif.Proofs.Forms
/-!
# The parser gives every input the outcome of the reference reader (C93)
-/
namespace Flo
open Spec

/-! ## Trees -/

theorem pair_read (as : List Attr) : (as.map attrRead).filterMap AttrRead.pair? = attrPairs as := by
  induction as with
  | nil => rfl
  | cons a as ih =>
    cases a with
    | bool b => exact ih
    | pair k v => exact congrArg ((k, v) :: ·) ih

theorem flag_read (as : List Attr) : (as.map attrRead).filterMap AttrRead.flag? = attrBools as := by
  induction as with
  | nil => rfl
  | cons a as ih =>
    cases a with
    | bool b => exact congrArg (b :: ·) ih
    | pair k v => exact ih

/-- Every end tag closes an element (`n` are open). -/
def closesOK : Nat → List Ev → Prop
  | _, [] => True
  | n, .text _ :: es => closesOK n es
  | n, .elem _ can _ :: es => closesOK (if can then n + 1 else n) es
  | n, .close :: es => 0 < n ∧ closesOK (n - 1) es

theorem lexAll_closes {base : Nat → Out Bool} {s : Str} : ∀ {f i : Nat} {tags : List Str} {evs : List Ev},
    lexAll base s f i tags = .ok evs → closesOK tags.length evs := by
  intro f
  induction f with
  | zero => intro i tags evs h; cases h
  | succ f ih =>
    intro i tags evs h
    unfold lexAll at h
    split at h
    · simp only [Out.bind_eq_ok] at h
      obtain ⟨⟨oe, j⟩, h1, evs', h2, h3⟩ := h
      cases h3
      have := ih h2
      cases oe with
      | none => exact this
      | some ev =>
        cases ev with
        | text raw => exact this
        | elem t can as =>
          simp only [Option.toList, List.cons_append, List.nil_append, closesOK]
          cases can
          · exact this
          · exact this
        | close =>
          have hne := lexStep_close h1
          obtain ⟨t, l, rfl⟩ := List.exists_cons_of_ne_nil hne
          exact ⟨by simp, this⟩
    · cases h; trivial

theorem out_add (fr : Frame) (fs : List Frame) (bot : List Tree) (k : List Tree) :
    (Zip.mk (⟨fr.tag, fr.ps, fr.bs, fr.done ++ k⟩ :: fs) bot).out = (addTree fs bot (.elem fr.tag fr.ps fr.bs (fr.done ++ k))).out := by
  cases fs with
  | nil => simp [Zip.out, sealAll, addTree]
  | cons f fs => simp [Zip.out, sealAll, addTree]

/-- An open element takes the trees up to its end. -/
theorem treesFrom_open : ∀ (f : Nat) (evs : List Ev), evs.length < f → ∀ (fr : Frame) (fs : List Frame) (bot : List Tree) (n : Nat),
    closesOK (n + 1) evs → ∃ evs', (treesFrom f (evs.map tokOf)).2 = evs'.map tokOf ∧ evs'.length ≤ evs.length ∧ closesOK n evs' ∧
      (evs.foldl Zip.feed ⟨fr :: fs, bot⟩).out =
        (evs'.foldl Zip.feed (addTree fs bot (.elem fr.tag fr.ps fr.bs (fr.done ++ (treesFrom f (evs.map tokOf)).1)))).out := by
  intro f
  induction f with
  | zero => intro evs h; omega
  | succ f ih =>
    intro evs hl fr fs bot n hc
    cases evs with
    | nil =>
      refine ⟨[], rfl, Nat.le_refl _, trivial, ?_⟩
      have := out_add fr fs bot []
      simpa [treesFrom] using this
    | cons e es =>
      simp only [List.length_cons] at hl
      cases e with
      | close =>
        refine ⟨es, rfl, by simp, hc.2, ?_⟩
        simp [treesFrom, tokOf, Zip.feed]
      | text raw =>
        obtain ⟨es', h1, h2, h3, h4⟩ := ih es (by omega) { fr with done := fr.done ++ [.text raw] } fs bot n hc
        refine ⟨es', h1, by simp; omega, h3, ?_⟩
        simp only [List.foldl_cons, List.map_cons, tokOf, treesFrom]
        rw [show Zip.feed ⟨fr :: fs, bot⟩ (.text raw) = ⟨{ fr with done := fr.done ++ [.text raw] } :: fs, bot⟩ from rfl, h4]
        simp
      | elem tag can as =>
        cases can with
        | false =>
          obtain ⟨es', h1, h2, h3, h4⟩ := ih es (by omega)
            { fr with done := fr.done ++ [.elem tag (attrPairs as) (attrBools as) []] } fs bot n hc
          refine ⟨es', h1, by simp; omega, h3, ?_⟩
          simp only [List.foldl_cons, List.map_cons, tokOf, treesFrom, pair_read, flag_read]
          rw [show Zip.feed ⟨fr :: fs, bot⟩ (.elem tag false as) =
            ⟨{ fr with done := fr.done ++ [.elem tag (attrPairs as) (attrBools as) []] } :: fs, bot⟩ from rfl, h4]
          simp
        | true =>
          obtain ⟨es1, h1, h2, h3, h4⟩ := ih es (by omega) ⟨tag, attrPairs as, attrBools as, []⟩ (fr :: fs) bot (n + 1) hc
          obtain ⟨es2, g1, g2, g3, g4⟩ := ih es1 (by omega)
            { fr with done := fr.done ++ [.elem tag (attrPairs as) (attrBools as) (treesFrom f (es.map tokOf)).1] } fs bot n h3
          refine ⟨es2, ?_, by simp; omega, g3, ?_⟩
          · simp only [List.map_cons, tokOf, treesFrom]
            rw [h1, g1]
          · simp only [List.foldl_cons, List.map_cons, tokOf, treesFrom, pair_read, flag_read]
            rw [show Zip.feed ⟨fr :: fs, bot⟩ (.elem tag true as) = ⟨⟨tag, attrPairs as, attrBools as, []⟩ :: fr :: fs, bot⟩ from rfl, h4]
            simp only [addTree, List.nil_append]
            rw [g4, h1]
            simp [addTree]

theorem treesFrom_bottom : ∀ (f : Nat) (evs : List Ev), evs.length < f → closesOK 0 evs → ∀ (bot : List Tree),
    (evs.foldl Zip.feed ⟨[], bot⟩).out = bot ++ (treesFrom f (evs.map tokOf)).1 := by
  intro f
  induction f with
  | zero => intro evs h; omega
  | succ f ih =>
    intro evs hl hc bot
    cases evs with
    | nil => simp [treesFrom, Zip.out, sealAll]
    | cons e es =>
      simp only [List.length_cons] at hl
      cases e with
      | close => exact absurd hc.1 (by omega)
      | text raw =>
        simp only [List.foldl_cons, List.map_cons, tokOf, treesFrom]
        rw [show Zip.feed ⟨[], bot⟩ (.text raw) = ⟨[], bot ++ [.text raw]⟩ from rfl, ih es (by omega) hc]
        simp
      | elem tag can as =>
        cases can with
        | false =>
          simp only [List.foldl_cons, List.map_cons, tokOf, treesFrom, pair_read, flag_read]
          rw [show Zip.feed ⟨[], bot⟩ (.elem tag false as) = ⟨[], bot ++ [.elem tag (attrPairs as) (attrBools as) []]⟩ from rfl,
            ih es (by omega) hc]
          simp
        | true =>
          obtain ⟨es1, h1, h2, h3, h4⟩ := treesFrom_open f es (by omega) ⟨tag, attrPairs as, attrBools as, []⟩ [] bot 0 hc
          simp only [List.foldl_cons, List.map_cons, tokOf, treesFrom, pair_read, flag_read]
          rw [show Zip.feed ⟨[], bot⟩ (.elem tag true as) = ⟨[⟨tag, attrPairs as, attrBools as, []⟩], bot⟩ from rfl, h4]
          simp only [addTree, List.nil_append]
          rw [ih es1 (by omega) h3, h1]
          simp

theorem treesOf_forest {evs : List Ev} (h : closesOK 0 evs) : treesOf (evs.map tokOf) = forest evs := by
  have := treesFrom_bottom ((evs.map tokOf).length + 1) evs (by simp) h []
  unfold treesOf forest
  rw [this, List.nil_append]

/-! ## Nesting -/

theorem runEvs_nests {startLen limit : Nat} (hl : limit + startLen = 256) : ∀ (evs : List Ev) (b : BState) (n : Nat),
    b.stack.length = n + startLen →
    Post NoUB (fun r => r.ok = !nestsBeyond limit n (evs.map tokOf)) (runEvs startLen evs b) := by
  intro evs
  induction evs with
  | nil => intro b n _; rfl
  | cons e es ih =>
    intro b n hs
    unfold runEvs
    cases e with
    | text raw =>
      refine Post.bindP (P := fun x => ∃ b', x = .inl b' ∧ b'.stack = b.stack) ?_ ?_
      · unfold runEv
        refine (parseTextElement_post _ _).bindP (fun r _ => ?_)
        obtain ⟨id, d⟩ := r
        exact ⟨_, rfl, rfl⟩
      · rintro x ⟨b', rfl, e⟩
        exact ih b' n (by rw [e, hs])
    | close =>
      refine Post.bindP (P := fun x => ∃ b', x = .inl b' ∧ b'.stack.length = n - 1 + startLen) ?_ ?_
      · unfold runEv
        cases hst : b.stack with
        | nil => rw [hst] at hs; simp at hs; exact ⟨_, rfl, by rw [hst]; simp; omega⟩
        | cons x t =>
          obtain ⟨id, tg⟩ := x
          rw [hst] at hs
          simp at hs
          dsimp only
          split
          · rename_i hc
            exact ⟨_, rfl, by simp at hc ⊢; omega⟩
          · rename_i hc
            exact ⟨_, rfl, by rw [hst]; simp at hc ⊢; omega⟩
      · rintro x ⟨b', rfl, e⟩
        exact ih b' (n - 1) e
    | elem tag can as =>
      cases can with
      | false =>
        refine Post.bindP (P := fun x => ∃ b', x = .inl b' ∧ b'.stack = b.stack) ?_ ?_
        · unfold runEv
          refine (buildElem_post _ _ _ _).bindP (fun r _ => ?_)
          obtain ⟨id, d⟩ := r
          exact ⟨_, rfl, rfl⟩
        · rintro x ⟨b', rfl, e⟩
          exact ih b' n (by rw [e, hs])
      | true =>
        by_cases hd : limit ≤ n
        · refine Post.bindP (P := fun x => ∃ d, x = .inr d) ?_ ?_
          · unfold runEv
            refine (buildElem_post _ _ _ _).bindP (fun r _ => ?_)
            obtain ⟨id, d⟩ := r
            dsimp only
            rw [if_pos rfl, if_pos (by show b.stack.length ≥ 256; omega)]
            exact ⟨_, rfl⟩
          · rintro x ⟨d, rfl⟩
            show false = _
            simp [tokOf, nestsBeyond, hd]
        · refine Post.bindP (P := fun x => ∃ b' id, x = .inl b' ∧ b'.stack = (id, tag) :: b.stack) ?_ ?_
          · unfold runEv
            refine (buildElem_post _ _ _ _).bindP (fun r _ => ?_)
            obtain ⟨id, d⟩ := r
            dsimp only
            rw [if_pos rfl, if_neg (by show ¬ b.stack.length ≥ 256; omega)]
            exact ⟨_, _, rfl, rfl⟩
          · rintro x ⟨b', id, rfl, e⟩
            have := ih b' (n + 1) (by rw [e]; simp; omega)
            simpa [tokOf, nestsBeyond, hd] using this

/-! ## Reading outside the input -/

theorem parseLoop_stuck {junk base : Nat → Out Bool} {s : Str} {bt : List Str} (hbt : bt = [] ∨ bt = [[]])
    (hb : BaseIs junk base s bt) : ∀ {f k : Nat} {tags : List Str} {evs : List Ev}, Stuck base s f k tags evs →
    ∀ {st : PState}, st.idx = k → StackIs bt tags st.stack →
    ∃ X : Dom → Out ParseRes, (∀ d r, X d ≠ .ok r) ∧
      parseLoop junk s bt.length f st = (runEvs bt.length evs st.b >>= fun r => if r.ok then X r.dom else .ok r) := by
  intro f k tags evs h
  induction h with
  | @here f k tags h e =>
    intro st hi hs
    subst hi
    refine ⟨fun _ => parseLoop junk s bt.length (f + 1) st, ?_, rfl⟩
    intro d r hr
    unfold parseLoop at hr
    rw [if_pos h] at hr
    simp only [Out.bind_eq_ok] at hr
    obtain ⟨x, h1, _⟩ := hr
    obtain ⟨y, hy⟩ := lexStep_of_parse hbt hs hb h1
    rw [e] at hy
    cases hy
  | @step f k i tags oe evs h e _ ih =>
    intro st hi hs
    subst hi
    unfold parseLoop
    rw [if_pos h, parseStep_lex hbt hs hb e]
    cases oe with
    | none =>
      simp only [afterStep, Out.bind_ok, Option.toList, List.nil_append]
      exact ih (st := { st with idx := i }) rfl hs
    | some ev =>
      simp only [afterStep, Option.toList, List.cons_append, List.nil_append, runEvs]
      cases hr : runEv bt.length st.b ev with
      | ok x =>
        cases x with
        | inl b =>
          simp only [Out.bind_ok, resume]
          exact ih (st := ⟨i, b.dom, b.stack, b.prev⟩) rfl (runEv_tags hs (fun e' => lexStep_close (e' ▸ e)) hr)
        | inr d => exact ⟨fun _ => .hang, (fun _ _ => by simp), rfl⟩
      | longjmp => exact ⟨fun _ => .hang, (fun _ _ => by simp), rfl⟩
      | ub w => exact ⟨fun _ => .hang, (fun _ _ => by simp), rfl⟩
      | hang => exact ⟨fun _ => .hang, (fun _ _ => by simp), rfl⟩

/-! ## Forms -/

theorem tokenForms_evs (evs : List Ev) : tokenForms (evs.map tokOf) = evForms evs := by
  induction evs with
  | nil => rfl
  | cons e es ih => cases e <;> simp [tokOf, tokenForms, evForms, ih]

/-! ## Summary -/

/-- The events of a document, or the reading outside it. -/
theorem docTokens_lex (s : Str) :
    ((docTokens s).2 = false ∧ ∃ evs, lex (rootBase s) s = .ok evs ∧ (docTokens s).1 = evs.map tokOf) ∨
    ((docTokens s).2 = true ∧ ∃ evs, Stuck (rootBase s) s (s.length + 1) (skipSpace s 0) [] evs ∧ (docTokens s).1 = evs.map tokOf) :=
  lexAll_ref (baseRef_root s) (s.length + 1) 0 (s.length + 1) [] (by omega) (by omega) (by simp)

theorem createDom_ref (s : Str) : createDom s = .longjmp ∨ (match outcome s with
    | .document ts => ∃ d, createDom s = .ok (some d) ∧ RepL d ts (kids d 1) ∧ Used Dom.init (tokenForms (docTokens s).1) d
    | .null => createDom s = .ok none
    | .outside => createDom s = .ub .negLen) := by
  have hpost := createDom_post s
  unfold outcome
  rcases docTokens_lex s with ⟨h1, evs, h2, h3⟩ | ⟨h1, evs, h2, h3⟩
  · have hn := runEvs_nests (startLen := 1) (limit := 255) rfl evs ⟨Dom.init, [(1, [])], 1⟩ 0 rfl
    rw [← parseRoot_lex (junk := fun _ => .ub .oobIndex) h2] at hn
    rw [← h3] at hn
    rw [h1]
    cases hp : parseRoot (fun _ => Out.ub .oobIndex) s Dom.init with
    | longjmp => left; simp [createDom, hp]
    | ub w => rw [hp] at hn; exact False.elim hn
    | hang => rw [hp] at hn; exact False.elim hn
    | ok r =>
      right
      rw [hp] at hn
      have hr : r.ok = !nestsBeyond 255 0 (docTokens s).1 := hn
      by_cases hnest : nestsBeyond 255 0 (docTokens s).1 = true
      · rw [if_pos hnest]
        rw [hnest] at hr
        show createDom s = .ok none
        simp [createDom, hp, hr]
      · have hnest : nestsBeyond 255 0 (docTokens s).1 = false := by simpa using hnest
        rw [hnest] at hr ⊢
        have hr : r.ok = true := hr
        rw [if_neg (by simp), if_neg (by simp)]
        have hcd : createDom s = .ok (some r.dom) := by simp [createDom, hp, hr]
        obtain ⟨evs', g1, g2⟩ := createDom_lex hcd
        rw [h2] at g1
        cases g1
        refine ⟨r.dom, hcd, ?_, ?_⟩
        · rw [h3, treesOf_forest (lexAll_closes h2)]
          exact g2
        · rw [parseRoot_lex h2] at hp
          have := runEvs_used (d := Dom.init) evs ⟨Dom.init, [(1, [])], 1⟩ [] (Used.nil .init) r hp
          dsimp only at this
          rw [if_pos hr, List.nil_append, ← tokenForms_evs, ← h3] at this
          exact this
  · have hn := runEvs_nests (startLen := 1) (limit := 255) rfl evs ⟨Dom.init, [(1, [])], 1⟩ 0 rfl
    rw [h1]
    obtain ⟨X, hX, hp⟩ := parseLoop_stuck (bt := [[]]) (Or.inr rfl) (baseIs_root (fun _ => .ub .oobIndex) s) h2
      (st := { idx := skipSpace s 0, dom := Dom.init, stack := [(rootID, [])], prev := rootID }) rfl rfl
    have hp : parseRoot (fun _ => .ub .oobIndex) s Dom.init =
      (runEvs 1 evs ⟨Dom.init, [(1, [])], 1⟩ >>= fun r => if r.ok then X r.dom else .ok r) := hp
    rw [← h3] at hn
    cases hr : runEvs 1 evs ⟨Dom.init, [(1, [])], 1⟩ with
    | longjmp => left; simp [createDom, hp, hr]
    | ub w => rw [hr] at hn; exact False.elim hn
    | hang => rw [hr] at hn; exact False.elim hn
    | ok r =>
      rw [hr] at hn hp
      simp only [Out.bind_ok] at hp
      have hok : r.ok = !nestsBeyond 255 0 (docTokens s).1 := hn
      by_cases hnest : nestsBeyond 255 0 (docTokens s).1 = true
      · right
        rw [if_pos hnest]
        rw [hnest] at hok
        show createDom s = .ok none
        rw [if_neg (by simp [hok])] at hp
        simp [createDom, hp, hok]
      · have hnest : nestsBeyond 255 0 (docTokens s).1 = false := by simpa using hnest
        rw [hnest] at hok ⊢
        have hok : r.ok = true := hok
        rw [if_neg (by simp), if_pos rfl]
        rw [if_pos hok] at hp
        cases hc : createDom s with
        | longjmp => exact Or.inl rfl
        | hang => rw [hc] at hpost; exact False.elim hpost
        | ub w =>
          rw [hc] at hpost
          have hw : w = .negLen := hpost.1
          right
          show Out.ub w = .ub .negLen
          rw [hw]
        | ok x =>
          simp only [createDom, Out.bind_eq_ok] at hc
          obtain ⟨y, hy, _⟩ := hc
          rw [hp] at hy
          exact absurd hy (hX _ _)

end Flo
