-- Concrete instances of the property theorems about the reports and the log's return values (C41, C57, C61, C62, C78-C80).
-- Each line prints what the named theorem determines; a line that differs from the unedited model's line means that the
-- theorem is false of the edited model.
import Verif.Spec.Status
import Verif.Spec.Report
import Verif.Spec.LogReturn
import Verif.Model.Parser
import Verif.Model.Edit
import Verif.Model.Status
open Flo Flo.Spec
def S (s : String) : Str := s.toUTF8.toList
def U (s : Str) : String := String.ofList (s.map (fun c => Char.ofNat c.toNat))
def oc {α : Type} : Out α → String
  | .ok _ => "ok"
  | .longjmp => "longjmp"
  | .ub _ => "ub"
  | .hang => "hang"
def outB : Out WBuf → String
  | .ok b => s!"{b.data.length} {repr (U b.sink)} {repr (U b.data)}"
  | x => oc x
def withDoc (s : String) (f : Dom → String) : String := match createDom (S s) with
  | .ok (some d) => f d
  | .ok none => "none"
  | x => oc x
def docs : List String := ["<p class=\"x\" id=\"a\" hidden>t<b></b></p>", "<p class=\"y\" id=\"a\" hidden>t<b></b></p>", "<p id=\"a\" hidden>t<b></b></p>",
  "<p class=\"x\" id=\"a\" open>t<b></b></p>", "<p hidden/>", "<q></q>", "t", "u<br/>", "<p x=\"1\" y=\"2\"></p>", "<p x=\"2\" y=\"1\"></p>", "<p><b></b><p/></p>",
  "<b x=\"1\" y=\"2\"></b><b x=\"1\" y=\"3\" z><br/>txt</b>"]
def sampleCs : List LogCall :=
  [.string (S "abc") ⟨true, false⟩, .cstr (some (S "xyz" ++ [0, 7])) ⟨false, false⟩, .cstr (some (S "x\nyz" ++ [0, 7])) ⟨false, false⟩, .cstr none ⟨true, false⟩, .bool true ⟨false, true⟩, .bool false ⟨true, true⟩,
   .char 65 ⟨false, false⟩, .ptr 0x7ffe10 ⟨false, false⟩, .uint64 120 ⟨false, false⟩, .uint64 0 ⟨true, false⟩, .ptrdiff (-5) ⟨true, false⟩, .ptrdiff 17 ⟨false, false⟩,
   .repeated 61 4 ⟨false, false⟩, .repeated 61 1 ⟨true, false⟩, .stringMin (S "ab") 5 ⟨false, false⟩, .stringMin (S "ab") 2 ⟨true, false⟩, .uint64Min 120 2 ⟨false, false⟩, .uint64Min 120 3 ⟨false, false⟩, .ptrdiffMin (-5) 3 ⟨true, true⟩,
   .color true .red, .color true .green, .color true .yellow, .color true .blue, .color true .magenta, .color true .cyan, .color true .reset, .color false .green, .colorReset true, .colorReset false,
   .double ⟨true, some (3, 14159)⟩ ⟨true, false⟩, .double ⟨false, some (0, 10)⟩ ⟨true, false⟩, .double ⟨false, some (0, 100000)⟩ ⟨true, false⟩, .double ⟨false, some (0, 0)⟩ ⟨true, false⟩, .double ⟨true, none⟩ ⟨true, false⟩, .double ⟨false, none⟩ ⟨false, false⟩]
def main : IO Unit := do
  for d in docs do
    IO.println ("C78_status_report | " ++ withDoc d fun d => outB (printDomStatus d ⟨7, [], [], []⟩))
    IO.println ("C78_name_tables | " ++ withDoc d fun d => match tableEntries d.keyMap, tableEntries d.valMap, tableEntries d.boolMap, tableEntries d.tagMap with
      | .ok a, .ok b, .ok c, .ok e => s!"{a.length} {b.length} {c.length} {e.length}"
      | _, _, _, _ => "bad")
  IO.println ("C78_status_report | " ++ withDoc "<p><b></b></p>" fun d => match removeNode 3 d with
    | .ok d => outB (printDomStatus d ⟨7, [], [], []⟩)
    | x => oc x)
  for x in docs do
    for y in docs do
      IO.println ("C41_exact_partial | " ++ withDoc x fun d => withDoc y fun e => match equals d e with
        | .ok r => s!"{repr r.status} {r.node1} {r.node2}"
        | x => oc x)
      IO.println ("C79_report_partial | " ++ withDoc x fun d => withDoc y fun e => outB (printFirstDifference 2 d 2 e ⟨5, [], [], []⟩) ++ outB (printFirstDifference 2 d 3 e ⟨5, [], [], []⟩))
      IO.println ("C79_after_equals_partial | " ++ withDoc x fun d => withDoc y fun e => match equals d e with
        | .ok r => if r.status = .success then "same" else outB (printFirstDifference r.node1 d r.node2 e ⟨500, [], [], []⟩)
        | x => oc x)
  for c in sampleCs do IO.println ("C80_returns_partial | " ++ match runCall c ⟨4, [], [], []⟩ with
    | .ok r => s!"{r.1} {r.2.sink} {r.2.data}"
    | x => oc x)
  IO.println ("C80_returns_partial | " ++ match runCalls sampleCs ⟨4, [], [], []⟩ with
    | .ok r => s!"{r.1} {r.2.sink} {r.2.data}"
    | x => oc x)
  for (s, k) in [(S "ab", 5), (S "ab", 2), (S "", 1), (S "abc", 2)] do IO.println s!"C80_same_output | {(match appendMinSizeR s k ⟨true, false⟩ ⟨9, [], [], []⟩ with | .ok r => s!"{r.2.sink} {r.2.data}" | x => oc x)} {outB (appendMinSize s k ⟨true, false⟩ ⟨9, [], [], []⟩)}"
  for u in [(0 : UInt64), 0x7ffe10, 0xffffffffffffffff, 0x123456789abcdef0] do IO.println s!"C57_exact_partial | {ptrText u}"
  for v in [(0 : Int), -1, 17, -2147483648, 2147483647] do IO.println s!"C61_exact_partial | {outB (appendInt v ⟨true, false⟩ ⟨64, [], [], []⟩)}"
  for (i, f) in [((3 : UInt64), (14159 : UInt64)), (0, 0), (0, 10), (18, 999999), (5, 100000), (0, 99)] do IO.println ("C62_text | " ++ match appendDoubleR ⟨false, some (i, f)⟩ ⟨true, false⟩ ⟨4, [], [], []⟩ with
    | .ok r => s!"{r.2.sink} {r.2.data}"
    | x => oc x)
