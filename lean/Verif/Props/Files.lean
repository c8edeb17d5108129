import Verif.Proofs.Files
import Verif.Spec.Files
import Verif.Props.Path
import Verif.Props.Print
/-!
# Files (C69, C70, C71)
-/
namespace Flo
open Spec

/-! ## C69: reading -/

/-- The outcomes of reading a file whose end position is not negative. -/
theorem readFile_cases (f : OpenFile) (a : Arena) (ha : a.beg ≤ a.stop) (h0 : 0 ≤ f.tell) (h1 : f.tell < 2 ^ 63) :
    (a.stop - a.beg < f.tell → readFile (some f) a = .ok (.cantAllocate, ⟨0, 0⟩, a)) ∧
    (f.tell ≤ a.stop - a.beg → readFile (some f) a = .ok
      (if f.data.length < f.tell then .cantRead else .success, ⟨a.beg, if f.data.length < f.tell then 0 else f.tell⟩,
        { a with beg := a.beg + f.tell, mem := memWrite a.beg (f.data.take f.tell.toNat) a.mem })) := by
  have hpad : arenaPadding a.beg 1 = 0 := by rw [arenaPadding_eq _ _ isAlign_one]; exact Int.emod_one _
  unfold readFile
  dsimp only
  unfold arenaAlloc
  rw [hpad]
  constructor
  · intro h
    dsimp only
    rw [if_pos (by rw [Int.tdiv_one]; omega)]
    simp only [if_true, Out.bind_ok]
  · intro h
    dsimp only
    rw [if_neg (by rw [Int.tdiv_one]; omega)]
    simp only [Out.bind_ok]
    unfold freadInto
    have e : (f.tell % 2 ^ 64).toNat = f.tell.toNat := by
      rw [Int.emod_eq_of_lt h0 (by omega)]
    rw [e]
    dsimp only
    have hl : (List.take f.tell.toNat f.data).length = min f.tell.toNat f.data.length := List.length_take
    rw [if_neg (by rw [hl]; omega)]
    simp only [Out.bind_ok, Bool.false_eq_true, if_false]
    by_cases hc : (f.data.length : Int) < f.tell
    · rw [if_pos (by rw [hl]; omega), if_pos hc, if_pos hc]
      simp
    · rw [if_neg (by rw [hl]; omega), if_neg hc, if_neg hc]
      simp

theorem memWrite_frame (p : Int) (bs : List UInt8) (mem : Int → UInt8) (x : Int) (h : x < p ∨ p + bs.length ≤ x) :
    memWrite p bs mem x = mem x := by
  unfold memWrite
  rw [if_neg (by omega)]

/-- **C69** Reading a file that can be positioned.  If it fits the arena and delivers as many bytes as its end position
says, the result is `FILE_SUCCESS` and the string consists of exactly these bytes and lies in the arena; in every other
case the matching error is reported; in all cases memory changes only inside the free part of the arena.  Missing: files
whose end position is reported as -1 (pipes, terminals), see `C69_violated`. -/
theorem C69_read_partial (f : OpenFile) (a : Arena) (ha : a.beg ≤ a.stop) (h0 : 0 ≤ f.tell) (h1 : f.tell < 2 ^ 63) :
    ∃ st v a', readFile (some f) a = .ok (st, v, a') ∧ OnlyFreeChanged a a' ∧
      (st = .success ↔ f.tell ≤ a.stop - a.beg ∧ f.tell ≤ f.data.length) ∧
      (st = .cantAllocate ↔ a.stop - a.beg < f.tell) ∧
      (st = .cantRead ↔ f.tell ≤ a.stop - a.beg ∧ f.data.length < f.tell) ∧
      (st = .success → v.len = f.tell ∧ View.bytes v a'.mem = f.data.take f.tell.toNat ∧ a.beg ≤ v.buf ∧
        v.buf + v.len ≤ a'.beg) := by
  obtain ⟨c1, c2⟩ := readFile_cases f a ha h0 h1
  by_cases hr : f.tell ≤ a.stop - a.beg
  · refine ⟨_, _, _, c2 hr, ?_, ?_⟩
    · refine ⟨by dsimp only; omega, by dsimp only; omega, rfl, ?_⟩
      intro x hx
      apply memWrite_frame
      rw [List.length_take]
      omega
    · by_cases hc : (f.data.length : Int) < f.tell
      · rw [if_pos hc, if_pos hc]
        refine ⟨?_, ?_, ?_, by intro h; cases h⟩
        · constructor
          · intro h; cases h
          · intro h; omega
        · constructor
          · intro h; cases h
          · intro h; omega
        · exact ⟨fun _ => ⟨hr, hc⟩, fun _ => rfl⟩
      · rw [if_neg hc, if_neg hc]
        refine ⟨⟨fun _ => ⟨hr, by omega⟩, fun _ => rfl⟩, ⟨(by intro h; cases h), (by intro h; omega)⟩,
          ⟨(by intro h; cases h), (by intro h; omega)⟩, fun _ => ⟨rfl, ?_, Int.le_refl _, Int.le_refl _⟩⟩
        unfold View.bytes
        dsimp only
        have hl : (List.take f.tell.toNat f.data).length = f.tell.toNat := by rw [List.length_take]; omega
        have := memWrite_read (m := a.mem) (p := a.beg) (e := List.take f.tell.toNat f.data)
        rw [hl] at this
        exact this
  · refine ⟨_, _, _, c1 (by omega), ⟨Int.le_refl _, ha, rfl, fun _ _ => rfl⟩, ⟨(by intro h; cases h), (by intro h; omega)⟩,
      ⟨fun _ => by omega, fun _ => rfl⟩, ⟨(by intro h; cases h), (by intro h; omega)⟩, (by intro h; cases h)⟩

/-- **C69** A file that cannot be opened is reported, and nothing changes. -/
theorem C69_cannot_open (a : Arena) : ∃ v, readFile none a = .ok (.cantOpen, v, a) := ⟨_, rfl⟩

/-- **C69** (violated) For a file that cannot be positioned `ftell` reports -1; the allocation of -1 bytes "succeeds" and
`fread` is asked for 2^64 - 1 bytes: the first byte it delivers is stored in memory that was not allocated. -/
theorem C69_violated : ∃ (f : OpenFile) (a : Arena), ArenaOK a ∧ a.beg + 100 ≤ a.stop ∧
    readFile (some f) a = .ub .oobIndex := by
  refine ⟨⟨-1, b!"x"⟩, ⟨100, 200, fun _ => 0⟩, by unfold ArenaOK; decide, by decide, ?_⟩
  have h : (match readFile (some ⟨-1, b!"x"⟩) ⟨100, 200, fun _ => 0⟩ with
    | .ub w => decide (w = .oobIndex)
    | _ => false) = true := by decide +kernel
  split at h
  · next w e => rw [e]; rw [of_decide_eq_true h]
  · cases h

/-- **C69** (violated) Even if such a file delivers nothing the arena is moved back by one byte, into memory in use. -/
theorem C69_violated_arena : ∃ (f : OpenFile) (a : Arena) (v : View) (a' : Arena), ArenaOK a ∧
    readFile (some f) a = .ok (.cantRead, v, a') ∧ a'.beg < a.beg := by
  have h : (match readFile (some ⟨-1, []⟩) ⟨100, 200, fun _ => 0⟩ with
    | .ok (st, _, a') => decide (st = .cantRead ∧ a'.beg < 100)
    | _ => false) = true := by decide +kernel
  split at h
  · next st v a' e =>
    obtain ⟨h1, h2⟩ := of_decide_eq_true h
    subst h1
    exact ⟨_, _, v, a', by unfold ArenaOK; decide, e, h2⟩
  · cases h

/-- **C69** exactly, for a file that cannot be positioned (`ftell` reports -1): if it delivers any byte, memory that was not
allocated is written; if it delivers none, an unreadable file is reported, no byte changes and the arena's position has
moved back by one, so that its next allocation overlaps the last byte in use.  Together with `C69_read_partial` and
`C69_cannot_open` this covers every file. -/
theorem C69_unseekable_exact_partial (f : OpenFile) (a : Arena) (ha : a.beg ≤ a.stop) (ht : f.tell = -1) :
    (f.data ≠ [] → readFile (some f) a = .ub .oobIndex) ∧
    (f.data = [] → ∃ v, readFile (some f) a = .ok (.cantRead, v, { a with beg := a.beg - 1 })) := by
  have hpad : arenaPadding a.beg 1 = 0 := by rw [arenaPadding_eq _ _ isAlign_one]; exact Int.emod_one _
  have hm : ∀ q, memWrite q [] a.mem = a.mem := by
    intro q; funext x; exact memWrite_frame _ _ _ _ (by simp only [List.length_nil]; omega)
  unfold readFile
  dsimp only
  unfold arenaAlloc
  rw [hpad, ht]
  dsimp only
  rw [if_neg (by rw [Int.tdiv_one]; omega)]
  simp only [Out.bind_ok]
  unfold freadInto
  constructor
  · intro h
    dsimp only
    have hl : 0 < f.data.length := List.length_pos_iff.2 h
    rw [if_pos (by rw [List.length_take]; omega)]
    rfl
  · intro h
    refine ⟨⟨a.beg + 0, 0⟩, ?_⟩
    rw [h]
    simp [hm]
    omega

example : 0 ≤ (regularFile b!"<p>").tell ∧ (regularFile b!"<p>").tell ≤ (⟨100, 200, fun _ => 0⟩ : Arena).stop - 100 := by
  decide

/-! ## C70: operations on files -/

/-- Reading a regular file that fits. -/
theorem readFile_regular (c : Str) (a : Arena) (ha : a.beg ≤ a.stop) (hc : (c.length : Int) < 2 ^ 63)
    (hfit : (c.length : Int) ≤ a.stop - a.beg) :
    ∃ v a', readFile (some (regularFile c)) a = .ok (.success, v, a') ∧ viewStr v a'.mem = c := by
  obtain ⟨st, v, a', e, _, hs, _, _, hv⟩ := C69_read_partial (regularFile c) a ha (Int.natCast_nonneg _) hc
  have : st = .success := hs.2 ⟨hfit, Int.le_refl _⟩
  subst this
  refine ⟨v, a', e, ?_⟩
  have := (hv rfl).2.1
  rw [show (regularFile c).tell.toNat = (regularFile c).data.length from Int.toNat_natCast _, List.take_length] at this
  exact this

/-- **C70** Parsing a file is parsing its contents. -/
theorem C70_create (c : Str) (a : Arena) (ha : a.beg ≤ a.stop) (hc : (c.length : Int) < 2 ^ 63)
    (hfit : (c.length : Int) ≤ a.stop - a.beg) : createDomFromFile (some (regularFile c)) a = createDom c := by
  obtain ⟨v, a', e, h⟩ := readFile_regular c a ha hc hfit
  unfold createDomFromFile
  rw [e]
  show createDom (viewStr v a'.mem) = _
  rw [h]

/-- **C70** Inserting a file at the node a selector finds is inserting its contents there. -/
theorem C70_edits (junk : Nat → Out Bool) (pun : Nat → Nat) (css c : Str) (d : Dom) (a : Arena) (ha : a.beg ≤ a.stop)
    (hc : (c.length : Int) < 2 ^ 63) (hfit : (c.length : Int) ≤ a.stop - a.beg) :
    appendHTMLFromFileWithQuery junk pun css (some (regularFile c)) a d = withQuery pun css (fun n => appendHTML junk n c) d ∧
    prependHTMLFromFileWithQuery junk pun css (some (regularFile c)) a d = withQuery pun css (fun n => prependHTML junk n c) d ∧
    replaceWithHTMLFromFileWithQuery junk pun css (some (regularFile c)) a d =
      withQuery pun css (fun n => replaceWithHTML junk n c) d := by
  obtain ⟨v, a', e, h⟩ := readFile_regular c a ha hc hfit
  unfold appendHTMLFromFileWithQuery prependHTMLFromFileWithQuery replaceWithHTMLFromFileWithQuery
  rw [e]
  subst h
  exact ⟨rfl, rfl, rfl⟩

/-- **C70** If the file cannot be opened, does not fit the arena or delivers too little, NULL or the error node is returned
and the document stays as it was. -/
theorem C70_failure (junk : Nat → Out Bool) (pun : Nat → Nat) (css : Str) (d : Dom) (file : Option OpenFile) (a : Arena)
    (ha : a.beg ≤ a.stop)
    (hbad : ∀ f, file = some f → 0 ≤ f.tell ∧ f.tell < 2 ^ 63 ∧ (a.stop - a.beg < f.tell ∨ f.data.length < f.tell)) :
    createDomFromFile file a = .ok none ∧ appendHTMLFromFileWithQuery junk pun css file a d = .ok (0, d) ∧
    prependHTMLFromFileWithQuery junk pun css file a d = .ok (0, d) ∧
    replaceWithHTMLFromFileWithQuery junk pun css file a d = .ok (0, d) := by
  have H : ∃ st v a', readFile file a = .ok (st, v, a') ∧ st ≠ .success := by
    cases file with
    | none => exact ⟨_, _, _, rfl, by decide⟩
    | some f =>
      obtain ⟨h0, h1, h2⟩ := hbad f rfl
      obtain ⟨st, v, a', e, _, hs, _⟩ := C69_read_partial f a ha h0 h1
      refine ⟨st, v, a', e, fun h => ?_⟩
      have := hs.1 h
      omega
  obtain ⟨st, v, a', e, hst⟩ := H
  unfold createDomFromFile appendHTMLFromFileWithQuery prependHTMLFromFileWithQuery replaceWithHTMLFromFileWithQuery
  rw [e]
  simp only [Out.bind_ok]
  rw [if_pos hst, if_pos hst, if_pos hst, if_pos hst]
  exact ⟨rfl, rfl, rfl, rfl⟩

/-- non-vacuity -/
example : (b!"<p>hi</p>".length : Int) ≤ (⟨100, 200, fun _ => 0⟩ : Arena).stop - (⟨100, 200, fun _ => 0⟩ : Arena).beg ∧
    ∃ d, createDom b!"<p>hi</p>" = .ok (some d) := by
  refine ⟨by decide, ?_⟩
  obtain ⟨d, h, _⟩ := someAnd_ex (x := createDom b!"<p>hi</p>") (p := fun _ => true) (by decide +kernel)
  exact ⟨d, h⟩

/-! ## C71: writing -/

/-- **C52** Exactly what happens on the other paths: no directory is made for a path that starts with a slash, whatever follows; the
call can only fail for want of room for a copy of the path. -/
theorem C52_absolute_exact_partial (path : Str) (scratch : Arena) (habs : path[0]? = some cSlash) :
    createPath path scratch = if (path.length : Int) + 1 ≤ scratch.stop - scratch.beg then .ok [] else .longjmp := by
  obtain ⟨i, hi, hF⟩ := C53_firstOccurenceOfFrom path cSlash 0
  have hi' : firstOccurenceOfFrom path cSlash 0 = .ok i := hi
  have hi0 : i = 0 := by
    unfold IsFirst at hF
    rcases hF with ⟨h1, h2⟩ | ⟨k, h1, h2, h3, h4⟩
    · exact absurd habs (h2 0 (Nat.le_refl _))
    · by_contra hne
      have hk : 0 < k := by omega
      exact h4 0 (Nat.le_refl _) hk habs
  subst hi0
  have hpad : arenaPadding scratch.beg 1 = 0 := by rw [arenaPadding_eq _ _ isAlign_one]; exact Int.emod_one _
  unfold createPath
  rw [hi']
  simp only [Out.bind_ok]
  rw [if_pos (by decide)]
  unfold arenaAlloc
  rw [hpad]
  dsimp only
  by_cases hroom : (path.length : Int) + 1 ≤ scratch.stop - scratch.beg
  · rw [if_neg (by rw [Int.tdiv_one]; omega), if_pos hroom]
    simp only [Out.bind_ok]
    unfold pathLoop
    rw [if_neg (by decide)]
  · rw [if_pos (by rw [Int.tdiv_one]; omega), if_neg hroom]
    rfl

/-- `/tmp/out/x.html`: nothing is made. -/
example : createPath b!"/tmp/out/x.html" ⟨0, 100, fun _ => 0⟩ = .ok [] ∧ createPath b!"/tmp/out/x.html" ⟨0, 15, fun _ => 0⟩ = .longjmp := by
  rw [C52_absolute_exact_partial _ _ (by decide), C52_absolute_exact_partial _ _ (by decide)]
  decide

theorem createPath_ok (path : Str) (scratch : Arena) (h0 : 0 ∉ path) (hroom : (path.length : Int) + 1 ≤ scratch.stop - scratch.beg) :
    ∃ ds, createPath path scratch = .ok ds := by
  by_cases hrel : path[0]? = some cSlash
  · exact ⟨[], by rw [C52_absolute_exact_partial _ _ hrel, if_pos hroom]⟩
  · rcases C52_mkdir_calls_partial path scratch h0 hrel with ⟨ds, h, _⟩ | ⟨_, h⟩
    · exact ⟨ds, h⟩
    · omega

theorem mkdirArg_terminated {path behind : Str} (h : Terminated path behind) : mkdirArg (path ++ behind) = .ok path := by
  obtain ⟨h0, hb⟩ := h
  cases behind with
  | nil => cases hb
  | cons c t =>
    have hc : c = 0 := by simpa using hb
    subst hc
    unfold mkdirArg
    rw [if_pos (by simp)]
    unfold cString
    rw [List.takeWhile_append_of_pos (fun c hc => by
      have : c ≠ 0 := fun h => h0 (h ▸ hc)
      simpa using this)]
    simp

/-- **C71** Writing a document to a file.  If the path is a C string, can be opened for writing, the scratch arena has room
and no write fails (each may accept any part of what it is given), the file named by the path contains exactly the printed
document, success is reported, and the directories asked for are those of `flo_createPath`.  If it cannot be opened, that
is reported.  Missing: failing writes, unterminated paths; see `C71_violated`. -/
theorem C71_write_partial (d : Dom) (h : Reachable d) (F : List Tree) (hF : RepL d F (kids d 1)) (path behind : Str)
    (ht : Terminated path behind) (canOpen : Str → Bool) (sched : List (Option Nat)) (hw : NoErrors sched)
    (scratch : Arena) (hr1 : (path.length : Int) + 1 ≤ scratch.stop - scratch.beg) (hr2 : 8192 ≤ scratch.stop - scratch.beg) :
    ∃ ds, createPath path scratch = .ok ds ∧ writeHTMLToFile d path behind canOpen sched scratch = .ok
      (if canOpen path then ⟨.success, ds, path, printAll (pairedTag d) F⟩ else ⟨.cantOpen, ds, path, []⟩) := by
  obtain ⟨ds, hds⟩ := createPath_ok path scratch ht.1 hr1
  refine ⟨ds, hds, ?_⟩
  have hp := C54_print_partial d h F hF
  obtain ⟨b', b'', e1, e2, e3, e4, _⟩ := (emitDom_spec hp).flushed ⟨8192, [], [], sched⟩ (by show 0 < 8192; decide) (by simp) hw
  have hpad : arenaPadding scratch.beg 1 = 0 := by rw [arenaPadding_eq _ _ isAlign_one]; exact Int.emod_one _
  unfold writeHTMLToFile
  rw [hds, mkdirArg_terminated ht]
  simp only [Out.bind_ok]
  by_cases hc : canOpen path = true
  · rw [if_pos hc, if_pos hc]
    unfold arenaAlloc
    rw [hpad]
    dsimp only
    rw [if_neg (by rw [Int.tdiv_one]; omega)]
    simp only [Out.bind_ok]
    rw [e1]
    simp only [Out.bind_ok]
    rw [e2]
    simp only [Out.bind_ok]
    rw [e4]
    rfl
  · rw [if_neg hc, if_neg hc]

/-- **C71** (violated) A failing write loses the document, but success is reported. -/
theorem C71_violated : ∃ d, createDom b!"<p>hi</p>" = .ok (some d) ∧ printHTML d = .ok b!"<p>hi</p>" ∧
    writeHTMLToFile d b!"f" b!"\x00" (fun _ => true) [none] ⟨0, 10000, fun _ => 0⟩ = .ok ⟨.success, [], b!"f", []⟩ := by
  obtain ⟨d, h, hd⟩ := someAnd_ex (x := createDom b!"<p>hi</p>") (p := fun d => decide
    (printHTML d = .ok b!"<p>hi</p>" ∧
      writeHTMLToFile d b!"f" b!"\x00" (fun _ => true) [none] ⟨0, 10000, fun _ => 0⟩ = .ok ⟨.success, [], b!"f", []⟩))
    (by decide +kernel)
  exact ⟨d, h, of_decide_eq_true hd⟩

/-- **C71** (violated) The length of the path is ignored when the file is opened: a string that is part of a longer one
opens another file. -/
theorem C71_violated_name : ∃ d, createDom b!"<p>hi</p>" = .ok (some d) ∧
    writeHTMLToFile d b!"a.html" b!"~\x00" (fun _ => true) [] ⟨0, 10000, fun _ => 0⟩ =
      .ok ⟨.success, [], b!"a.html~", b!"<p>hi</p>"⟩ := by
  obtain ⟨d, h, hd⟩ := someAnd_ex (x := createDom b!"<p>hi</p>") (p := fun d => decide
    (writeHTMLToFile d b!"a.html" b!"~\x00" (fun _ => true) [] ⟨0, 10000, fun _ => 0⟩ =
      .ok ⟨.success, [], b!"a.html~", b!"<p>hi</p>"⟩)) (by decide +kernel)
  exact ⟨d, h, of_decide_eq_true hd⟩

/-- **C71** Printing to standard output: whatever was in the buffer comes first, then the announcement, the document and
two line ends, and nothing stays in the buffer. -/
theorem C71_print (d : Dom) (h : Reachable d) (F : List Tree) (hF : RepL d F (kids d 1)) (b : WBuf) (hcap : 0 < b.cap)
    (hlen : b.data.length ≤ b.cap) (hw : NoErrors b.sched) :
    ∃ b', printHTMLTo d b = .ok b' ∧ b'.data = [] ∧
      b'.sink = b.sink ++ b.data ++ (b!"printing HTML...\n\n" ++ printAll (pairedTag d) F ++ b!"\n\n") := by
  have hp := C54_print_partial d h F hF
  obtain ⟨b', b'', e1, e2, e3, e4, _⟩ := (((Emits.log b!"printing HTML...\n\n").comp (emitDom_spec hp)).comp
    (Emits.log b!"\n\n")).flushed b hcap hlen hw
  refine ⟨b'', ?_, e3, e4⟩
  unfold printHTMLTo
  simp only [bind_assoc] at e1
  have : (do
      let b ← logStr b!"printing HTML...\n\n" b
      let b ← emitDom d b
      let b ← logStr b!"\n\n" b
      flushIgnore b) = ((do
      let b ← logStr b!"printing HTML...\n\n" b
      let b ← emitDom d b
      logStr b!"\n\n" b) >>= flushIgnore) := by simp only [bind_assoc]
  rw [this, e1]
  exact e2

/-- non-vacuity: a DOM with one tree, written through short writes. -/
example : Terminated b!"out/a.html" b!"\x00" ∧ NoErrors [some 3, some 0, some 5000] := by
  refine ⟨⟨by decide, rfl⟩, ?_⟩
  intro r hr
  simp at hr
  rcases hr with rfl | rfl | rfl <;> simp

end Flo
