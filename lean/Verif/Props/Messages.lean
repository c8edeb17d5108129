import Verif.Proofs.Messages
import Verif.Props.Query
import Verif.Props.Files
/-!
# The messages of failing calls (C85), the texts of status codes (C86), the two standard streams (C87)
-/
namespace Flo
open Spec

/-! ## C85: queries -/

/-- Every query on a reachable DOM gets an answer, and a refusal never has the status "success". -/
theorem querySelectorAll_answer {d : Dom} (h : Reachable d) (pun : Nat → Nat) (css : Str) :
    ∃ r, querySelectorAll pun css d = .ok r ∧ r ≠ .fail .success := by
  rcases querySelectorAll_eval (reach_domI h).1 pun css with ⟨st, h1, h2⟩ | ⟨_, L, h2, _⟩
  · refine ⟨_, h2, ?_⟩
    rintro ⟨⟩
    rcases firstFail_status h1 with h | h | h <;> cases h
  · exact ⟨_, h2, by rintro ⟨⟩⟩

theorem querySelectorAllE_tells {pun : Nat → Nat} {css : Str} {d : Dom} {r : QRes (List Nat)}
    (h : querySelectorAll pun css d = .ok r) (hr : r ≠ .fail .success) :
    ∃ n, n ≤ css.count 91 ∧ Tells (querySelectorAllE pun css d) r (warnings n ++ queryEnd (QRes.status r)) := by
  unfold querySelectorAll at h
  rw [Out.bind_eq_ok] at h
  obtain ⟨q, hq, h⟩ := h
  have hq0 : q ≠ .fail .success := by
    rintro rfl
    injection h with h
    exact hr h.symm
  obtain ⟨n, hn, hc⟩ := selectLoopE_tells pun css d _ _ _ _ _ hq hq0
  have hst : QRes.status q = QRes.status r := by
    cases q with
    | fail st => injection h with h; rw [← h]; rfl
    | go set =>
      dsimp only at h
      rw [Out.bind_eq_ok] at h
      obtain ⟨L, _, h⟩ := h
      injection h with h; rw [← h]; rfl
  refine ⟨n, hc, ?_⟩
  refine (hn.andThen (k := fun q b => match q with
    | .fail st => .ok (.fail st, b)
    | .go results => do
      let arr ← u16ToArray results
      .ok (.go arr, b)) (c := r) (t := []) (Tells.silent fun b => ?_) fun b => ?_).text (by rw [List.append_nil, hst])
  · cases q with
    | fail st => injection h with h; rw [← h]
    | go set =>
      dsimp only at h ⊢
      rw [Out.bind_eq_ok] at h
      obtain ⟨L, hL, h⟩ := h
      injection h with h
      rw [hL, ← h]; rfl
  · unfold querySelectorAllE
    rcases hn with ⟨_, e⟩ | ⟨_, g, _, e⟩
    · rw [e]; cases q <;> rfl
    · rw [e]; cases q <;> simp only [bind_assoc, Out.bind_ok]

theorem querySelectorE_tells {pun : Nat → Nat} {css : Str} {d : Dom} {r : QRes (Option Nat)} {q : QRes (List Nat)}
    (hq : querySelectorAll pun css d = .ok q) (hq0 : q ≠ .fail .success) (h : querySelector pun css d = .ok r) :
    QRes.status r = QRes.status q ∧
    ∃ n, n ≤ css.count 91 ∧ Tells (querySelectorE pun css d) r (warnings n ++ queryEnd (QRes.status q)) := by
  obtain ⟨n, hc, hn⟩ := querySelectorAllE_tells hq hq0
  unfold querySelector at h
  rw [hq] at h
  have hE : ∀ b, querySelectorE pun css d b = (querySelectorAllE pun css d b >>= fun x => (match x.1 with
      | .fail st => .ok (.fail st, x.2)
      | .go results =>
        if results.length = 0 then .ok (.go (some 0), x.2)
        else do
          let r ← selectorLoop d results (d.nodes.length + 1) rootID
          .ok (.go r, x.2))) := by
    intro b
    unfold querySelectorE
    cases querySelectorAllE pun css d b with
    | ok x => obtain ⟨x, y⟩ := x; cases x <;> rfl
    | _ => rfl
  have key : QRes.status r = QRes.status q ∧ ∀ b, (match q with
      | .fail st => .ok (.fail st, b)
      | .go results =>
        if results.length = 0 then .ok (.go (some 0), b)
        else do
          let r ← selectorLoop d results (d.nodes.length + 1) rootID
          .ok (.go r, b) : Out (QRes (Option Nat) × WBuf)) = .ok (r, b) := by
    simp only [Out.bind_ok] at h
    cases q with
    | fail st => injection h with h; rw [← h]; exact ⟨rfl, fun b => rfl⟩
    | go L =>
      dsimp only at h ⊢
      by_cases hl : L.length = 0
      · rw [if_pos hl] at h
        injection h with h
        rw [← h]
        exact ⟨rfl, fun b => by rw [if_pos hl]⟩
      · rw [if_neg hl, Out.bind_eq_ok] at h
        obtain ⟨r', hr', h⟩ := h
        injection h with h
        rw [← h]
        exact ⟨rfl, fun b => by rw [if_neg hl, hr']; rfl⟩
  refine ⟨key.1, n, hc, ?_⟩
  exact (hn.andThen (k := fun q b => match q with
    | .fail st => .ok (.fail st, b)
    | .go results =>
      if results.length = 0 then .ok (.go (some 0), b)
      else do
        let r ← selectorLoop d results (d.nodes.length + 1) rootID
        .ok (.go r, b)) (c := r) (t := []) (Tells.silent key.2) hE).text (by rw [List.append_nil])

/-- **C85** What a query says.  On every reachable DOM and for every query string the call with the standard error buffer
answers what the call answers (`querySelectorAll`), and puts on the stream one warning for each condition it dropped (at most one
per `[`), then, if it refuses the query, the reason, the name of the status and the closing line, and nothing otherwise; and if
it said something, the stream has been flushed. -/
theorem C85_query (d : Dom) (h : Reachable d) (pun : Nat → Nat) (css : Str) :
    ∃ r text, querySelectorAll pun css d = .ok r ∧ QuerySays css (QRes.status r) text ∧
      Puts (querySelectorAllE pun css d) r text := by
  obtain ⟨r, hr, hr0⟩ := querySelectorAll_answer h pun css
  obtain ⟨n, hn, ht⟩ := querySelectorAllE_tells hr hr0
  exact ⟨r, _, hr, ⟨n, hn, rfl⟩, ht.puts⟩

/-- **C85** The same for `querySelector`. -/
theorem C85_query_first (d : Dom) (h : Reachable d) (pun : Nat → Nat) (css : Str) :
    ∃ r text, querySelector pun css d = .ok r ∧ QuerySays css (QRes.status r) text ∧ Puts (querySelectorE pun css d) r text := by
  obtain ⟨q, hq, hq0⟩ := querySelectorAll_answer h pun css
  have : ∃ r, querySelector pun css d = .ok r := by
    rcases querySelector_eval (pun := pun) (reach_domI h).1 css with ⟨st, _, e⟩ | ⟨L, _, e⟩
    · exact ⟨_, e⟩
    · exact ⟨_, e⟩
  obtain ⟨r, hr⟩ := this
  obtain ⟨hst, n, hn, ht⟩ := querySelectorE_tells hq hq0 hr
  exact ⟨r, _, hr, ⟨n, hn, by rw [hst]⟩, ht.puts⟩

/-- **C85** A query without attribute conditions says something exactly if it is refused. -/
theorem C85_silent_iff (d : Dom) (h : Reachable d) (pun : Nat → Nat) (css : Str) (hb : (91 : UInt8) ∉ css) :
    ∃ r text, querySelectorAll pun css d = .ok r ∧ Puts (querySelectorAllE pun css d) r text ∧
      (text = [] ↔ ∃ L, r = .go L) := by
  obtain ⟨r, text, hr, ⟨n, hn, e⟩, hp⟩ := C85_query d h pun css
  rw [List.count_eq_zero_of_not_mem hb] at hn
  have hn0 : n = 0 := by omega
  subst hn0
  refine ⟨r, text, hr, hp, ?_⟩
  obtain ⟨r', hr', h0⟩ := querySelectorAll_answer h pun css
  rw [hr] at hr'
  injection hr' with e'
  subst e'
  cases r with
  | go L => exact ⟨fun _ => ⟨L, rfl⟩, fun _ => e⟩
  | fail st =>
    refine ⟨fun h => ?_, by rintro ⟨L, ⟨⟩⟩⟩
    rw [e] at h
    cases st <;> first | (exact absurd rfl h0) | cases h

example : ∃ d, Reachable d ∧ (91 : UInt8) ∉ b!"p, b" ∧ ∃ b', querySelectorAllE (fun _ => 0) b!"p[x,b" d ⟨7, b!"> ", [], [some 3]⟩ = .ok b' ∧
    b'.2.sink = b!"> Unrecognized character in filtering function. Dropping a token!\nDetected unforeseen tag or attributeUnable get query results!\n" := by
  obtain ⟨d, h1, h2⟩ := someAnd_ex (x := createDom b!"<p></p>")
    (p := fun d => okAnd (querySelectorAllE (fun _ => 0) b!"p[x,b" d ⟨7, b!"> ", [], [some 3]⟩) (fun b' => decide (b'.2.sink =
      b!"> Unrecognized character in filtering function. Dropping a token!\nDetected unforeseen tag or attributeUnable get query results!\n")))
    (by decide +kernel)
  obtain ⟨b', h3, h4⟩ := okAnd_ex h2
  exact ⟨d, .parsed h1, by decide, b', h3, of_decide_eq_true h4⟩

/-! ## C85: edits addressed by a query -/

theorem withQueryE_tells {d : Dom} (h : Reachable d) (pun : Nat → Nat) (css : Str) (edit : Nat → Dom → Out (Nat × Dom))
    {x : Nat × Dom} (hx : withQuery pun css edit d = .ok x) :
    ∃ r text, querySelectorAll pun css d = .ok r ∧ QuerySays css (QRes.status r) text ∧
      Tells (withQueryE pun css edit d) x (text ++ if QRes.status r = .success then [] else notFound css) := by
  obtain ⟨q, hq, hq0⟩ := querySelectorAll_answer h pun css
  unfold withQuery at hx
  rw [Out.bind_eq_ok] at hx
  obtain ⟨r, hr, hx⟩ := hx
  obtain ⟨hst, n, hn, ht⟩ := querySelectorE_tells hq hq0 hr
  have hE : ∀ b, withQueryE pun css edit d b = (querySelectorE pun css d b >>= fun x => (match x.1 with
      | .fail _ => do
        let b ← sayC b!"Could not find element using query selector: " ⟨false, false⟩ x.2
        let b ← sayS css ⟨true, false⟩ b
        let b ← flushIgnore b
        .ok ((0, d), b)
      | .go r => do
        let r ← edit (r.getD 0) d
        .ok (r, x.2))) := by
    intro b
    unfold withQueryE
    cases querySelectorE pun css d b with
    | ok x => obtain ⟨x, y⟩ := x; cases x <;> rfl
    | _ => rfl
  refine ⟨q, _, hq, ⟨n, hn, rfl⟩, ?_⟩
  refine ht.andThen (k := fun r b => match r with
      | .fail _ => do
        let b ← sayC b!"Could not find element using query selector: " ⟨false, false⟩ b
        let b ← sayS css ⟨true, false⟩ b
        let b ← flushIgnore b
        .ok ((0, d), b)
      | .go r => do
        let r ← edit (r.getD 0) d
        .ok (r, b)) ?_ hE
  rw [← hst]
  cases r with
  | fail st =>
    injection hx with hx
    have hst0 : st ≠ .success := by
      rintro rfl
      cases q with
      | fail st' => exact hq0 (by rw [show st' = .success from hst.symm])
      | go L =>
        unfold querySelector at hr
        rw [hq] at hr
        simp only [Out.bind_ok] at hr
        split at hr
        · cases hr
        · rw [Out.bind_eq_ok] at hr
          obtain ⟨_, _, hr⟩ := hr
          cases hr
    rw [if_neg (show QRes.status (.fail st : QRes (Option Nat)) ≠ .success from hst0), ← hx]
    refine (Tells.say (Reports.mk ((prints_sayC (s := b!"Could not find element using query selector: ") (by decide) ⟨false, false⟩).bind
      (prints_sayS css ⟨true, false⟩))) (by simp) (Tells.silent (f := fun b => .ok (((0, d) : Nat × Dom), b)) (fun b => rfl))
        fun b => ?_).text (by simp [notFound, lineEnd])
    simp only [bind_assoc]
  | go v =>
    dsimp only at hx
    rw [if_pos (show QRes.status (.go v : QRes (Option Nat)) = .success from rfl)]
    refine Tells.silent fun b => ?_
    dsimp only
    rw [hx]; rfl

theorem runQueryEdit_eq (junk : Nat → Out Bool) (pun : Nat → Nat) (css : Str) (d : Dom) (b : WBuf) (op : QueryEdit) :
    runQueryEdit junk pun css d b op = withQueryE pun css (editOf junk op) d b := by
  cases op <;> rfl

/-- **C85** The nine edits addressed by a query: the call answers, and does to the DOM, what the same edit at the first node
found does (`withQuery`, see C38), and says what the query says and, if the query was refused, that the selector did not find
anything. -/
theorem C85_query_edit (d : Dom) (h : Reachable d) (junk : Nat → Out Bool) (pun : Nat → Nat) (css : Str) (op : QueryEdit)
    (x : Nat × Dom) (hx : withQuery pun css (editOf junk op) d = .ok x) :
    ∃ r text, querySelectorAll pun css d = .ok r ∧ QuerySays css (QRes.status r) text ∧
      Puts (fun b => runQueryEdit junk pun css d b op) x (text ++ if QRes.status r = .success then [] else notFound css) := by
  obtain ⟨r, text, h1, h2, h3⟩ := withQueryE_tells h pun css (editOf junk op) hx
  exact ⟨r, text, h1, h2, (h3.congr fun b => runQueryEdit_eq junk pun css d b op).puts⟩

/-- **C85** In particular a refused query leaves the DOM as it is, answers 0, and ends its output with the line that names the
selector. -/
theorem C85_refused (d : Dom) (h : Reachable d) (junk : Nat → Out Bool) (pun : Nat → Nat) (css : Str) (op : QueryEdit)
    (st : QStatus) (hq : querySelectorAll pun css d = .ok (.fail st)) :
    ∃ text, Puts (fun b => runQueryEdit junk pun css d b op) (0, d) text ∧ notFound css <:+ text := by
  have hx := (C38_withQuery_partial d h pun css (editOf junk op)).1 st hq
  obtain ⟨r, text, h1, _, h3⟩ := C85_query_edit d h junk pun css op _ hx
  rw [hq] at h1
  injection h1 with h1
  subst h1
  obtain ⟨r', hr', h0⟩ := querySelectorAll_answer h pun css
  rw [hq] at hr'
  injection hr' with e
  subst e
  rw [if_neg (fun e => h0 (by rw [show st = .success from e]))] at h3
  exact ⟨_, h3, List.suffix_append _ _⟩

/-- **C38** (violated) A selector that is understood but finds nothing is not reported at all: the text is inserted below node 0
(see `C38_violated`) and the standard error stream stays empty. -/
theorem C38_violated_silent : ∃ d r, createDom b!"<p></p>" = .ok (some d) ∧
    runQueryEdit (fun _ => .ok false) (fun _ => 0) b!"p p" d ⟨64, [], [], []⟩ (.appendText b!"x") = .ok r ∧
    decide (querySelectorAll (fun _ => 0) b!"p p" d = .ok (.go []) ∧ r.1.1 = 3 ∧ r.2.sink ++ r.2.data = []) = true := by
  obtain ⟨d, h1, h2⟩ := someAnd_ex (x := createDom b!"<p></p>")
    (p := fun d => okAnd (runQueryEdit (fun _ => .ok false) (fun _ => 0) b!"p p" d ⟨64, [], [], []⟩ (.appendText b!"x")) (fun r =>
      decide (querySelectorAll (fun _ => 0) b!"p p" d = .ok (.go []) ∧ r.1.1 = 3 ∧ r.2.sink ++ r.2.data = [])))
    (by decide +kernel)
  obtain ⟨r, h3, h4⟩ := okAnd_ex h2
  exact ⟨d, r, h1, h3, h4⟩

/-- Non-vacuity of `C85_refused`, and what it looks like. -/
example : ∃ d r, Reachable d ∧ querySelectorAll (fun _ => 0) b!"b" d = .ok (.fail .notSeenBefore) ∧
    runQueryEdit (fun _ => .ok false) (fun _ => 0) b!"b" d ⟨5, [], [], []⟩ (.replaceHTML b!"<i>") = .ok r ∧
    r.2.sink = b!"Detected unforeseen tag or attributeUnable get query results!\nCould not find element using query selector: b\n" := by
  obtain ⟨d, h1, h2⟩ := someAnd_ex (x := createDom b!"<p></p>")
    (p := fun d => decide (querySelectorAll (fun _ => 0) b!"b" d = .ok (.fail .notSeenBefore)) &&
      okAnd (runQueryEdit (fun _ => .ok false) (fun _ => 0) b!"b" d ⟨5, [], [], []⟩ (.replaceHTML b!"<i>")) (fun r =>
      decide (r.2.sink = b!"Detected unforeseen tag or attributeUnable get query results!\nCould not find element using query selector: b\n")))
    (by decide +kernel)
  rw [Bool.and_eq_true] at h2
  obtain ⟨r, h3, h4⟩ := okAnd_ex h2.2
  exact ⟨d, r, .parsed h1, of_decide_eq_true h2.1, h3, of_decide_eq_true h4⟩

/-! ## C85: files -/

theorem fileStatus_name (st : FileStatus) : fileStatusToString st.code = .ok (fileStatusName st) := by cases st <;> rfl

theorem sayUnreadable_reports {st : FileStatus} {path : Str} (hp : (0 : UInt8) ∉ path) :
    Reports (sayUnreadable st path) (unreadable st path) := by
  have hs : (0 : UInt8) ∉ fileStatusName st := by cases st <;> decide
  refine ((Reports.mk (((prints_sayC hs ⟨true, false⟩).bind (prints_sayC (s := b!"Failed to read file: ") (by decide)
    ⟨false, false⟩)).bind (prints_sayC hp ⟨true, false⟩))).congr (fun b => ?_)).text ?_
  · unfold sayUnreadable
    rw [fileStatus_name]
    simp only [bind_assoc, Out.bind_ok]
  · simp [unreadable, lineEnd]

theorem unreadable_ne (st : FileStatus) (path : Str) : unreadable st path ≠ [] := by
  unfold unreadable; simp

/-- **C85** Parsing a file that cannot be read: NULL, and the message names the reason and the file.  Otherwise nothing is
said. -/
theorem C85_create_from_file (path : Str) (hp : (0 : UInt8) ∉ path) (file : Option OpenFile) (a : Arena) (st : FileStatus)
    (v : View) (a' : Arena) (hr : readFile file a = .ok (st, v, a')) :
    (st ≠ .success → Puts (createDomFromFileE path file a) none (unreadable st path)) ∧
    (st = .success → ∀ r, createDomFromFile file a = .ok r → Puts (createDomFromFileE path file a) r []) := by
  constructor
  · intro hst
    refine ((Tells.say (sayUnreadable_reports hp) (unreadable_ne st path)
      (Tells.silent (f := fun b => .ok ((none : Option Dom), b)) (fun b => rfl)) fun b => ?_).text (by rw [List.append_nil])).puts
    unfold createDomFromFileE
    rw [hr]
    simp only [Out.bind_ok, if_pos hst]
  · intro hst r h
    refine (Tells.silent fun b => ?_).puts
    unfold createDomFromFile at h
    unfold createDomFromFileE
    rw [hr] at h ⊢
    simp only [Out.bind_ok, hst, ne_eq, not_true_eq_false, if_false] at h ⊢
    rw [h]; rfl

/-- **C85** Inserting a file at the node a selector finds: if the file cannot be read the DOM is left as it is, the answer is 0
and the message names the reason and the file; otherwise the call says what the edit by that query says. -/
theorem C85_edit_from_file (edit : Nat → Str → Dom → Out (Nat × Dom)) (d : Dom) (h : Reachable d) (pun : Nat → Nat) (css path : Str)
    (hp : (0 : UInt8) ∉ path) (file : Option OpenFile) (a : Arena) (st : FileStatus) (v : View) (a' : Arena)
    (hr : readFile file a = .ok (st, v, a')) :
    (st ≠ .success → Puts (htmlFromFileWithQueryE edit pun css path file a d) (0, d) (unreadable st path)) ∧
    (st = .success → ∀ x, withQuery pun css (fun n d => edit n (View.bytes v a'.mem) d) d = .ok x →
      ∃ r text, querySelectorAll pun css d = .ok r ∧ QuerySays css (QRes.status r) text ∧
        Puts (htmlFromFileWithQueryE edit pun css path file a d) x
          (text ++ if QRes.status r = .success then [] else notFound css)) := by
  constructor
  · intro hst
    refine ((Tells.say (sayUnreadable_reports hp) (unreadable_ne st path)
      (Tells.silent (f := fun b => .ok (((0, d) : Nat × Dom), b)) (fun b => rfl)) fun b => ?_).text (by rw [List.append_nil])).puts
    unfold htmlFromFileWithQueryE
    rw [hr]
    simp only [Out.bind_ok, if_pos hst]
  · intro hst x hx
    obtain ⟨r, text, h1, h2, h3⟩ := withQueryE_tells h pun css _ hx
    refine ⟨r, text, h1, h2, (h3.congr fun b => ?_).puts⟩
    unfold htmlFromFileWithQueryE
    rw [hr]
    simp only [Out.bind_ok, hst, ne_eq, not_true_eq_false, if_false]
    rfl

/-- **C85** Writing a file that cannot be opened for writing is reported with its name; otherwise nothing is said. -/
theorem C85_write (d : Dom) (path behind : Str) (canOpen : Str → Bool) (sched : List (Option Nat)) (scratch : Arena)
    (r : WriteResult) (hr : writeHTMLToFile d path behind canOpen sched scratch = .ok r) :
    Puts (writeHTMLToFileE d path behind canOpen sched scratch) r
      (if r.status = .cantOpen then b!"Failed to open file for writing: " ++ path ++ b!"\n" else []) := by
  by_cases hc : r.status = .cantOpen
  · rw [if_pos hc]
    refine ((Tells.say (Reports.mk ((prints_sayC (s := b!"Failed to open file for writing: ") (by decide) ⟨false, false⟩).bind
      (prints_sayS path ⟨true, false⟩))) (by simp) (Tells.silent (f := fun b => .ok (r, b)) (fun b => rfl))
        fun b => ?_).text (by simp [lineEnd])).puts
    unfold writeHTMLToFileE
    rw [hr]
    simp only [Out.bind_ok, if_pos hc, bind_assoc]
  · rw [if_neg hc]
    refine (Tells.silent fun b => ?_).puts
    unfold writeHTMLToFileE
    rw [hr]
    simp only [Out.bind_ok, if_neg hc]

example : readFile none ⟨100, 200, fun _ => 0⟩ = .ok (.cantOpen, ⟨0, 0⟩, ⟨100, 200, fun _ => 0⟩) ∧ (0 : UInt8) ∉ b!"x.html" ∧
    unreadable .cantOpen b!"x.html" = b!"Cannot open file\nFailed to read file: x.html\n" := by
  exact ⟨rfl, by decide, by decide⟩

/-! ## C86: texts of status codes -/

/-- **C86** Each of the five functions that give the text of a code answers for every number: for the codes of the enumeration
their names, which are different from each other, and a text of its own for everything else.  Nothing is ever read beyond the
tables. -/
theorem C86_status_texts :
    ((∀ st : QStatus, queryingStatusToString st.code = .ok (queryStatusName st)) ∧
      (∀ k : Int, (∀ st : QStatus, k ≠ st.code) → queryingStatusToString k = .ok b!"Unknown query status code!") ∧
      (∀ s t, queryStatusName s = queryStatusName t → s = t) ∧ ∀ s, queryStatusName s ≠ b!"Unknown query status code!") ∧
    ((∀ st : FileStatus, fileStatusToString st.code = .ok (fileStatusName st)) ∧
      (∀ k : Int, (∀ st : FileStatus, k ≠ st.code) → fileStatusToString k = .ok b!"Unknown file status code!") ∧
      (∀ s t, fileStatusName s = fileStatusName t → s = t) ∧ ∀ s, fileStatusName s ≠ b!"Unknown file status code!") ∧
    ((∀ st : CStatus, comparisonStatusToString st.code = .ok (comparisonStatusName st)) ∧
      (∀ k : Int, (∀ st : CStatus, k ≠ st.code) → comparisonStatusToString k = .ok b!"Unknown comparison status code!") ∧
      (∀ s t, comparisonStatusName s = comparisonStatusName t → s = t) ∧
      ∀ s, comparisonStatusName s ≠ b!"Unknown comparison status code!") ∧
    ((∀ t : NodeType, nodeTypeToString t.num = .ok (nodeTypeName t)) ∧
      (∀ k : Int, (∀ t : NodeType, k ≠ t.num) → nodeTypeToString k = .ok b!"Unknown node type!") ∧
      (∀ s t, nodeTypeName s = nodeTypeName t → s = t) ∧ ∀ s, nodeTypeName s ≠ b!"Unknown node type!") := by
  refine ⟨⟨queryingStatus_name, ?_, ?_, ?_⟩, ⟨fileStatus_name, ?_, ?_, ?_⟩, ⟨?_, ?_, ?_, ?_⟩, ⟨?_, ?_, ?_, ?_⟩⟩
  · intro k h
    have h0 := h .success
    have h1 := h .invalidElement
    have h2 := h .tooManyFilters
    have h3 := h .notSeenBefore
    have h4 := h .memoryError
    simp only [QStatus.code] at h0 h1 h2 h3 h4
    unfold queryingStatusToString
    rw [if_neg (by omega)]
  · intro s t; cases s <;> cases t <;> simp [queryStatusName]
  · intro s; cases s <;> simp [queryStatusName]
  · intro k h
    have h0 := h .success
    have h1 := h .cantOpen
    have h2 := h .cantAllocate
    have h3 := h .cantRead
    simp only [FileStatus.code] at h0 h1 h2 h3
    unfold fileStatusToString
    rw [if_neg (by omega)]
  · intro s t; cases s <;> cases t <;> simp [fileStatusName]
  · intro s; cases s <;> simp [fileStatusName]
  · intro st; cases st <;> rfl
  · intro k h
    have h0 := h .success
    have h1 := h .memory
    have h2 := h .differentNodeType
    have h3 := h .differentSizes
    have h4 := h .differentContent
    simp only [CStatus.code] at h0 h1 h2 h3 h4
    unfold comparisonStatusToString
    rw [if_neg (by omega)]
  · intro s t; cases s <;> cases t <;> simp [comparisonStatusName]
  · intro s; cases s <;> simp [comparisonStatusName]
  · intro st; cases st <;> rfl
  · intro k h
    have h0 := h .root
    have h1 := h .document
    have h2 := h .text
    have h3 := h .removed
    have h4 := h .error
    simp only [NodeType.num] at h0 h1 h2 h3 h4
    unfold nodeTypeToString
    rw [if_neg (by omega)]
  · intro s t; cases s <;> cases t <;> simp [nodeTypeName]
  · intro s; cases s <;> simp [nodeTypeName]

/-- **C86** The text for the result of comparing two string sets: three names, and one text for every other number. -/
theorem C86_hash_status (k : Int) : hashStatusToString k = .ok (
    if k = 0 then b!"Success" else if k = 1 then b!"Collections have different sizes"
    else if k = 2 then b!"Collections have different content" else b!"Unknown hash comparison status code!") := by
  by_cases h0 : k = 0
  · subst h0; rfl
  by_cases h1 : k = 1
  · subst h1; rfl
  by_cases h2 : k = 2
  · subst h2; rfl
  unfold hashStatusToString
  rw [if_neg (by omega), if_neg h0, if_neg h1, if_neg h2]

/-! ## C87: the two standard streams -/

/-- **C87** The two standard streams are independent: after any interleaving of output operations on them, each has received
exactly the texts sent to it, in order (delivered or still in its buffer), provided that no write fails. -/
theorem C87_streams (ops : List (BufferType × LogOp)) (s : Streams)
    (ho : 0 < s.out.cap ∧ s.out.data.length ≤ s.out.cap ∧ NoErrors s.out.sched)
    (he : 0 < s.err.cap ∧ s.err.data.length ≤ s.err.cap ∧ NoErrors s.err.sched)
    (hs : ∀ t x k fl, (t, LogOp.minSize x k fl) ∈ ops → x.length < 2 ^ 32) :
    ∃ s', runStreams ops s = .ok s' ∧
      s'.out.sink ++ s'.out.data = s.out.sink ++ s.out.data ++ streamText .stdout ops ∧
      s'.err.sink ++ s'.err.data = s.err.sink ++ s.err.data ++ streamText .stderr ops ∧
      s'.out.data.length ≤ s'.out.cap ∧ s'.err.data.length ≤ s'.err.cap := by
  have key : ∀ (ops : List (BufferType × LogOp)) (s : Streams) (o e : WBuf),
      runLogs ((ops.filter (fun x => x.1 = .stdout)).map (·.2)) s.out = .ok o →
      runLogs ((ops.filter (fun x => x.1 = .stderr)).map (·.2)) s.err = .ok e → runStreams ops s = .ok ⟨o, e⟩ := by
    intro ops
    induction ops with
    | nil =>
      intro s o e h1 h2
      simp only [List.filter_nil, List.map_nil, runLogs] at h1 h2
      injection h1 with h1
      injection h2 with h2
      subst h1; subst h2; rfl
    | cons x ops ih =>
      intro s o e h1 h2
      obtain ⟨t, op⟩ := x
      cases t with
      | stdout =>
        rw [List.filter_cons_of_pos (by simp), List.map_cons, runLogs, Out.bind_eq_ok] at h1
        rw [List.filter_cons_of_neg (by simp)] at h2
        obtain ⟨b, hb, h1⟩ := h1
        unfold runStreams onStream getWriteBuffer setWriteBuffer
        simp only [if_true, hb, Out.bind_ok]
        exact ih ⟨b, s.err⟩ o e h1 h2
      | stderr =>
        rw [List.filter_cons_of_neg (by simp)] at h1
        rw [List.filter_cons_of_pos (by simp), List.map_cons, runLogs, Out.bind_eq_ok] at h2
        obtain ⟨b, hb, h2⟩ := h2
        unfold runStreams onStream getWriteBuffer setWriteBuffer
        simp only [reduceCtorEq, if_false, hb, Out.bind_ok]
        exact ih ⟨s.out, b⟩ o e h1 h2
  have txt : ∀ t, streamText t ops = ((ops.filter (fun x => x.1 = t)).map (·.2)).flatMap LogOp.text := by
    intro t; unfold streamText; rw [List.flatMap_map]
  have small : ∀ t x k fl, LogOp.minSize x k fl ∈ (ops.filter (fun o => o.1 = t)).map (·.2) → x.length < 2 ^ 32 := by
    intro t x k fl hm
    obtain ⟨⟨t', op⟩, hm, e⟩ := List.mem_map.1 hm
    dsimp only at e
    subst e
    exact hs t' x k fl (List.mem_filter.1 hm).1
  obtain ⟨o, h1, h2, h3⟩ := C43_ordered _ s.out ho.1 ho.2.1 ho.2.2 (small .stdout)
  obtain ⟨e, h4, h5, h6⟩ := C43_ordered _ s.err he.1 he.2.1 he.2.2 (small .stderr)
  exact ⟨⟨o, e⟩, key ops s o e h1 h4, by rw [txt]; exact h2, by rw [txt]; exact h5, h3, h6⟩

example : ∃ s', runStreams [(.stdout, .append b!"hello" ⟨true, false⟩), (.stderr, .append b!"oops" ⟨true, true⟩), (.stdout, .repeated 42 3 ⟨false, false⟩)]
    ⟨⟨4, [], [], []⟩, ⟨3, [], [], [some 1]⟩⟩ = .ok s' ∧ s'.out.sink ++ s'.out.data = b!"hello\n***" ∧ s'.err.sink = b!"oops\n" := by
  exact ⟨_, rfl, by decide +kernel, by decide +kernel⟩

end Flo
