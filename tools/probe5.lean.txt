-- Concrete instances of the property theorems about messages and about editing and duplicating in the arena's memory (C85-C92).
-- Each line prints what the named theorem determines.
import Verif.Spec.QueryMem
import Verif.Spec.DomMem
import Verif.Spec.EditMem
import Verif.Spec.Messages
import Verif.Model.QueryMem
import Verif.Model.DomMem
import Verif.Model.EditMem
import Verif.Model.DupMem
import Verif.Model.Messages
import Verif.Model.Query
open Flo Flo.Spec
def S (s : String) : Str := s.toUTF8.toList
def U (s : Str) : String := String.ofList (s.map (fun c => if c = 10 then '~' else Char.ofNat c.toNat))
def oc {α : Type} : Out α → String
  | .ok _ => "ok"
  | .longjmp => "longjmp"
  | .ub _ => "ub"
  | .hang => "hang"
def withDoc (s : String) (f : Dom → String) : String := match createDom (S s) with
  | .ok (some d) => f d
  | .ok none => "none"
  | x => oc x
def docs : List String := ["<p class=\"x\" id=\"a\" hidden>t<b></b></p>", "<p a=\"1\"/>x", "<b x=\"1\" y=\"2\"></b><b x=\"1\" y=\"3\" z><br/>txt<!-- c --> more  text</b>",
  "<div><b></b><p></p></div><p>q</p>", "hello <i>w</i> x", "", "<a b='c d' e f=g h><i/>t u</a><a b='z'/>v", "<!doctype html><html><head></head><body>x < y</body></html>"]
def queries : List String := ["p", "b", "div p", "p, b", "b + p", "[hidden]", "#a", "*", "b ~ p", "div > p", "p,,", "[x=1]", "nothing", "", "> p"]
def big (beg n : Int) (m : Int → UInt8) : Arena := ⟨beg, beg + n, m⟩
def junks : List (Int → UInt8) := [fun _ => 7, fun _ => 0, fun x => UInt8.ofNat (x.toNat * 37)]
def around (a : Arena) (m : Int → UInt8) : Bool :=
  (List.range 40).all fun i => m (a.beg - 1 - i) == a.mem (a.beg - 1 - i) && m (a.stop + i) == a.mem (a.stop + i)
def deepDoc : String := String.join (List.replicate 36 "<p><b></b>") ++ String.join (List.replicate 36 "</p>")
def showNode (mem : Int → UInt8) (p : Int) : String :=
  let t := number mem (p + 4) 4
  s!"{number mem p 2} {t} " ++ (if t = 2 then U (stringAt mem (p + 8)) else s!"{number mem (p + 8) 2}")
def showDom (mem : Int → UInt8) (M : MDom) (s : String) (src : Int) : String :=
  let nodes := (List.range M.nodes.len.toNat).map fun i => showNode mem (entryAddr M.nodes 24 i)
  let names := (entries M.boolReg 16 ++ entries M.keyReg 16 ++ entries M.valReg 16).map fun p => U (stringAt mem p)
  let tags := (entries M.tagReg 24).map fun p => (U (tagAt mem p).1, (tagAt mem p).2)
  let find (m : MMap) := ([⟨src + 1, 1⟩, ⟨src + 3, 1⟩, ⟨src + 5, 1⟩, ⟨1500, 3⟩, ⟨1504, 3⟩, ⟨1516, 1⟩, ⟨1509, 1⟩, ⟨1518, 1⟩] : List MStr).map fun k => match memLookup k m mem with | .ok v => s!"{v}" | x => oc x
  s!"{nodes} {(entries M.fc 4).map (pairAt mem)} {(entries M.pc 4).map (pairAt mem)} {(entries M.nn 4).map (pairAt mem)} {(entries M.boolProps 4).map (pairAt mem)} {(entries M.props 6).map fun p => repr (tripleAt mem p)} {names} {tags} {find M.tagMap} {find M.boolMap} {find M.keyMap} {find M.valMap}"

def pack (a : Arena) : Arena :=
  let arr : Array UInt8 := (Array.range 9000).map fun (i : Nat) => a.mem (1000 + (i : Int))
  { a with mem := fun y => if 1000 ≤ y ∧ y < 10000 then arr.getD (y - 1000).toNat 0 else 7 }
def docs5 : List String := ["<p class=\"x\" hidden>t<b></b></p>", "<b x=1></b><i x=2 z>u</i>v", "hello <i>w</i> x", "<p></p>"]
def memo : Str := S "key new <p>u</p>z<i/> x<b a=b>c</b> v w <b> 'q"
def strs : List MStr := [⟨1500, 3⟩, ⟨1504, 3⟩, ⟨1508, 8⟩, ⟨1508, 9⟩, ⟨1508, 13⟩, ⟨1516, 1⟩, ⟨1521, 15⟩, ⟨1521, 17⟩, ⟨1500, 0⟩, ⟨1517, 4⟩]
def at_ (i : Nat) : MStr := strs.getD i ⟨1500, 3⟩
def doc1 : MDocNode := ⟨at_ 0, true, [at_ 1, at_ 5], [(at_ 0, at_ 5), (at_ 5, at_ 1)]⟩
def ops (n : Nat) : List MOp := [.add n (at_ 0) (at_ 1), .addBool n (at_ 1), .set n (at_ 0) (at_ 5), .remove n (at_ 0), .removeBool n (at_ 1),
  .setTag (at_ 0) n true, .setText n (at_ 1), .removeNode n, .removeChildren n, .appendDoc n doc1, .appendText n (at_ 1),
  .prependDoc n doc1, .prependText n (at_ 1), .replaceDoc n doc1, .replaceText n (at_ 1)] ++
  ([2, 3, 5, 6].flatMap fun i => [MOp.appendHTML n (at_ i), .prependHTML n (at_ i), .replaceHTML n (at_ i)])
def runAll : List MOp → MDom → Arena → String × Option (MDom × Arena)
  | [], M, a => ("", some (M, a))
  | op :: l, M, a => match memCall (fun _ => .ok false) op M a with
    | .ok (v, M, a) => let r := runAll l M (pack a); (s!" {v}" ++ r.1, r.2)
    | x => (" " ++ oc x, none)
def b0 : WBuf := ⟨9, S "> ", [], []⟩
def showQ {α : Type} (f : α → String) : Out (α × WBuf) → String
  | .ok (x, b) => f x ++ " [" ++ U b.sink ++ "] [" ++ U b.data ++ "]"
  | x => oc x
def showR : QRes (List Nat) → String
  | .go l => s!"{l}"
  | .fail st => s!"{repr st}"
def showW (x : Nat × Dom) : String := s!"{x.1} {x.2.nodes.length} {repr x.2.fc} {repr x.2.nn}"
def queries5 : List String := queries ++ ["p[x", "p[x,b", "[a=b]", ".x", "[a b]", "p[hidden][hidden][hidden]", "+", "p..x#a", String.join (List.replicate 40 "[hidden]")]
def main : IO Unit := do
  for s in docs5 do
    let j : Int → UInt8 := fun x => UInt8.ofNat (x.toNat * 37)
    for beg in [(2001 : Int)] do
      let a : Arena := ⟨beg, beg + 7000, memWrite 1500 memo (memWrite 1000 (S s) j)⟩
      let src : MStr := ⟨1000, (S s).length⟩
      let a := pack a
      match memCreateDom src a with
      | .ok (some M, a1) =>
        let a1 := pack a1
        let a2 : Arena := pack { a1 with beg := a1.beg + 5, mem := memWrite a1.beg (S "hello") a1.mem }
        for n in List.range M.nodes.len.toNat do
          if n > 0 ∧ n < 5 then
            for op in ops n do
              for l in (if n = 2 then [[op, .appendText 1 (at_ 1), .appendHTML 1 (at_ 4)]] else [[op]]) do
                let (t, r) := runAll l M a2
                let show' := match r with | some (M', a') => showDom a'.mem M' s 1000 ++ s!" {around a a'.mem} {decide (a'.stop = a.stop ∧ a2.beg ≤ a'.beg)} {U (stringAt (memWrite 10 (encStr ⟨a1.beg, 5⟩) a'.mem) 10)}" | none => ""
                IO.println s!"C88_edit_in_memory | {t} {show'}"
                IO.println s!"C89_memory_is_linear | {match r with | some (_, a') => decide (a'.beg - a2.beg ≤ 3000) | none => true}"
        match memDuplicate M a2 with
        | .ok (M2, a3) =>
          let a3 := pack a3
          IO.println s!"C90_duplicate_in_memory | {showDom a3.mem M2 s 1000} {around a a3.mem} {decide (a3.stop = a.stop ∧ a2.beg ≤ a3.beg)}"
          IO.println s!"C91_all_doms_in_memory | {showDom a3.mem M s 1000}"
          IO.println s!"C90_memory_is_linear | {decide (a3.beg - a2.beg ≤ 4000)}"
          let (t, r) := runAll [.appendText 1 (at_ 1), .addBool 1 (at_ 0), .appendHTML 1 (at_ 4)] M a3
          IO.println s!"C91_edit_one | {t} {match r with | some (M', a') => showDom a'.mem M' s 1000 ++ showDom a'.mem M2 s 1000 | none => ""}"
          let (t, r) := runAll [.appendText 1 (at_ 1), .addBool 1 (at_ 0), .appendHTML 1 (at_ 4)] M2 a3
          IO.println s!"C92_edit_duplicate_partial | {t} {match r with | some (M', a') => showDom a'.mem M' s 1000 ++ showDom a'.mem M s 1000 | none => ""}"
        | x => IO.println s!"C90_duplicate_in_memory | {oc x}"
      | x => IO.println s!"C83 | {oc x}"
  for s in (docs.drop 2).take 3 do
    for q in queries5 do
      IO.println ("C85_query | " ++ withDoc s fun d => showQ showR (querySelectorAllE (fun _ => 0) (S q) d b0))
      IO.println ("C85_query_first | " ++ withDoc s fun d => showQ (fun x => match x with | .go r => s!"{r}" | .fail st => s!"{repr st}") (querySelectorE (fun _ => 0) (S q) d b0))
      for op in ([.appendDocument ⟨S "u", true, [], []⟩, .appendText (S "t"), .appendHTML (S "<i/>j"), .prependDocument ⟨S "u", true, [], []⟩, .prependText (S "t"), .prependHTML (S "<i/>j"), .replaceDocument ⟨S "u", true, [], []⟩, .replaceText (S "t"), .replaceHTML (S "<i/>j")] : List QueryEdit) do
        IO.println ("C85_query_edit | " ++ withDoc s fun d => showQ showW (runQueryEdit (fun _ => .ok false) (fun _ => 0) (S q) d b0 op))
    let a : Arena := ⟨100, 4000, fun _ => 7⟩
    for f in [none, some ⟨-1, S "x"⟩, some ⟨5, S "abc"⟩, some ⟨7, S "<p>x</p"⟩, some (⟨8, S "<p>x</p>"⟩ : OpenFile), some ⟨999999, S "q"⟩] do
      IO.println ("C85_create_from_file | " ++ showQ (fun d => match d with | none => "NULL" | some d => s!"{d.nodes.length}") (createDomFromFileE (S "x.html") f a b0))
      for q in ["p", "nothing"] do
        IO.println ("C85_edit_from_file | " ++ withDoc s fun d => showQ showW (htmlFromFileWithQueryE (appendHTML (fun _ => .ok false)) (fun _ => 0) (S q) (S "x.html") f a d b0))
    for c in [true, false] do
      IO.println ("C85_write | " ++ withDoc s fun d => showQ (fun r => s!"{repr r}") (writeHTMLToFileE d (S "/a/b.html") [0] (fun _ => c) [] a b0))
  for k in [(-1 : Int), 0, 1, 2, 3, 4, 5, 6, 100] do
    for f in [queryingStatusToString, fileStatusToString, comparisonStatusToString, nodeTypeToString] do
      IO.println s!"C86_status_texts | {match f k with | .ok s => U s | x => oc x}"
    IO.println s!"C86_hash_status | {match hashStatusToString k with | .ok s => U s | x => oc x}"
  IO.println s!"C86_status_texts | {[QStatus.success, .invalidElement, .tooManyFilters, .notSeenBefore, .memoryError].map QStatus.code} {[FileStatus.success, .cantOpen, .cantAllocate, .cantRead].map FileStatus.code} {[CStatus.success, .memory, .differentNodeType, .differentSizes, .differentContent].map CStatus.code} {[NodeType.root, .document, .text, .removed, .error].map NodeType.num}"
  for l in ([[(.stdout, .append (S "hello") ⟨true, false⟩), (.stderr, .append (S "oops") ⟨true, true⟩), (.stdout, .repeated 42 3 ⟨false, false⟩)], [(.stderr, .flush), (.stdout, .append (S "a") ⟨false, false⟩), (.stderr, .append (S "bcdefgh") ⟨true, false⟩), (.stdout, .flush)]] : List (List (BufferType × LogOp))) do
    IO.println s!"C87_streams | {match runStreams l ⟨⟨4, [], [], []⟩, ⟨3, [], [], []⟩⟩ with | .ok s => U s.out.sink ++ "|" ++ U s.out.data ++ "|" ++ U s.err.sink ++ "|" ++ U s.err.data | x => oc x}"
