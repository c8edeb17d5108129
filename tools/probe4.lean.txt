-- Concrete instances of the property theorems about queries and parsing in the arena's memory (C81-C84), and of C53, C61, C80.
-- Each line prints what the named theorem determines.
import Verif.Spec.QueryMem
import Verif.Spec.DomMem
import Verif.Model.QueryMem
import Verif.Model.DomMem
import Verif.Model.Query
import Verif.Model.Strings
import Verif.Model.LogReturn
open Flo Flo.Spec
def S (s : String) : Str := s.toUTF8.toList
def U (s : Str) : String := String.ofList (s.map (fun c => Char.ofNat c.toNat))
def oc {α : Type} : Out α → String
  | .ok _ => "ok"
  | .longjmp => "longjmp"
  | .ub _ => "ub"
  | .hang => "hang"
def withDoc (s : String) (f : Dom → String) : String := match createDom (S s) with
  | .ok (some d) => f d
  | .ok none => "none"
  | x => oc x
def docs : List String := ["<p class=\"x\" id=\"a\" hidden>t<b></b></p>", "<p a=\"1\"/>x", "<b x=\"1\" y=\"2\"></b><b x=\"1\" y=\"3\" z><br/>txt<!-- c --> more  text</b>",
  "<div><b></b><p></p></div><p>q</p>", "hello <i>w</i> x", "", "<a b='c d' e f=g h><i/>t u</a><a b='z'/>v", "<!doctype html><html><head></head><body>x < y</body></html>"]
def queries : List String := ["p", "b", "div p", "p, b", "b + p", "[hidden]", "#a", "*", "b ~ p", "div > p", "p,,", "[x=1]", "nothing", "", "> p"]
def big (beg n : Int) (m : Int → UInt8) : Arena := ⟨beg, beg + n, m⟩
def junks : List (Int → UInt8) := [fun _ => 7, fun _ => 0, fun x => UInt8.ofNat (x.toNat * 37)]
def around (a : Arena) (m : Int → UInt8) : Bool :=
  (List.range 40).all fun i => m (a.beg - 1 - i) == a.mem (a.beg - 1 - i) && m (a.stop + i) == a.mem (a.stop + i)
def deepDoc : String := String.join (List.replicate 36 "<p><b></b>") ++ String.join (List.replicate 36 "</p>")
def showNode (mem : Int → UInt8) (p : Int) : String :=
  let t := number mem (p + 4) 4
  s!"{number mem p 2} {t} " ++ (if t = 2 then U (stringAt mem (p + 8)) else s!"{number mem (p + 8) 2}")
def showDom (mem : Int → UInt8) (M : MDom) (s : String) (src : Int) : String :=
  let nodes := (List.range M.nodes.len.toNat).map fun i => showNode mem (entryAddr M.nodes 24 i)
  let names := (entries M.boolReg 16 ++ entries M.keyReg 16 ++ entries M.valReg 16).map fun p => U (stringAt mem p)
  let tags := (entries M.tagReg 24).map fun p => (U (tagAt mem p).1, (tagAt mem p).2)
  let find (m : MMap) := ((List.range s.length).flatMap fun (i : Nat) => [1, 2, 3, 4].map fun (n : Nat) => match memLookup ⟨src + (i : Int), min n (s.length - i)⟩ m mem with | .ok v => s!"{v}" | x => oc x)
  s!"{nodes} {(entries M.fc 4).map (pairAt mem)} {(entries M.pc 4).map (pairAt mem)} {(entries M.nn 4).map (pairAt mem)} {(entries M.boolProps 4).map (pairAt mem)} {(entries M.props 6).map fun p => repr (tripleAt mem p)} {names} {tags} {find M.tagMap} {find M.boolMap} {find M.keyMap} {find M.valMap}"
def main : IO Unit := do
  for s in docs do
    for j in junks do
      for (beg, n) in [(2001, (900000 : Int)), (2004, 900000)] do
        let a : Arena := ⟨beg, beg + n, memWrite 1000 (S s) j⟩
        let src : MStr := ⟨1000, (S s).length⟩
        match memCreateDom src a with
        | .ok (q, b) =>
          IO.println s!"C83_parse_in_memory | {decide (a.beg ≤ b.beg ∧ b.beg ≤ b.stop ∧ b.stop = a.stop)} {around a b.mem} {match q with | none => "NULL" | some M => showDom b.mem M s 1000}"
          let scrib : Int → UInt8 := fun y => if b.beg ≤ y ∧ y < b.stop then 99 else b.mem y
          IO.println s!"C83_parse_in_memory | {match q with | none => "NULL" | some M => showDom scrib M s 1000}"
          IO.println s!"C84_memory_is_linear | {decide (b.beg - a.beg ≤ 840 + 320 * (S s).length)}"
        | x => IO.println s!"C83_parse_in_memory | {oc x}"; IO.println "C83_parse_in_memory | -"; IO.println "C84_memory_is_linear | -"
        let a : Arena := ⟨beg, beg + 840 + 320 * (S s).length, memWrite 1000 (S s) j⟩
        IO.println s!"C84_parse_succeeds | {oc (memCreateDom src a)}"
  for d in docs do
    for q in queries do
      for (j, beg) in [((fun _ => 7 : Int → UInt8), (5001 : Int)), (fun x => UInt8.ofNat (x.toNat * 37), 6000)] do
          let a := big beg 100000000 j
          IO.println ("C81_array | " ++ withDoc d fun d => match memQuerySelectorAll (fun _ => 0) (S q) d a with
            | .ok (.go (p, n), b) => s!"{p} {n} {words16 b.mem p n} {b.beg} {b.stop} {around a b.mem}"
            | .ok (.fail st, b) => s!"{repr st} {b.beg} {b.stop} {around a b.mem}"
            | x => oc x)
          IO.println ("C81_first | " ++ withDoc d fun d => match memQuerySelector (fun _ => 0) (S q) d a with
            | .ok (.go r, b) => s!"{repr r} {around a b}"
            | .ok (.fail st, b) => s!"{repr st} {around a b}"
            | x => oc x)
    IO.println ("C82_least | " ++ withDoc d fun d => oc (memQuerySelectorAll (fun _ => 0) (S "p") d (big 5000 511 fun _ => 0)))
    IO.println ("C82_room | " ++ withDoc d fun d => oc (memQuerySelectorAll (fun _ => 0) (S "p") d (big 5000 (5 * 1310720) fun _ => 0)))
  for q in ["p b", "*, p"] do
    IO.println ("C81_array | " ++ withDoc deepDoc fun d => match memQuerySelectorAll (fun _ => 0) (S q) d (big 5001 100000000 fun _ => 7) with
            | .ok (.go (p, n), b) => s!"{p} {n} {words16 b.mem p n} {b.beg} {b.stop}"
            | .ok (.fail st, b) => s!"{repr st} {b.beg} {b.stop}"
            | x => oc x)
  for s in ["", "a", "abc", "hello world"] do
    IO.println s!"C53_djb2 | {match stringDjb2 (S s) with | .ok v => s!"{v}" | x => oc x}"
    IO.println s!"C53_skeeto | {match stringSkeeto (S s) with | .ok v => s!"{v}" | x => oc x}"
  for v in [true, false] do
    IO.println s!"C61_text | {U (boolText v)}"
