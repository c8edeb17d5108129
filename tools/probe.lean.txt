-- Concrete instances of the property theorems.  Each line prints what the named theorem determines; a line that
-- differs from the unedited model's line means that the theorem is false of the edited model.
import Verif.Model.Query
import Verif.Model.Write
import Verif.Model.Log
import Verif.Model.Compare
import Verif.Model.Edit
open Flo
def S (s : String) : Str := s.toUTF8.toList
def U (s : Str) : String := String.fromUTF8! ⟨s.toArray⟩
def O [ToString α] : Out α → String
  | .ok a => s!"ok {a}"
  | .ub _ => "ub"
  | .longjmp => "longjmp"
  | .hang => "hang"
partial def chain (d : Dom) (k : Nat) (n : Nat) : List Nat := if k = 0 ∨ n = 0 then [] else n :: chain d (k-1) (getNext n d)
def ch (d : Dom) (n : Nat) : List Nat := chain d 50 (getFirstChild n d)
def strOf (reg : List Str) (i : Nat) : String := U (reg.getD i [])
def prs (d : Dom) (n : Nat) : List String := d.props.filterMap fun r => if r.node = n then some (strOf d.keyReg r.key ++ "=" ++ strOf d.valReg r.value) else none
def bls (d : Dom) (n : Nat) : List String := d.boolProps.filterMap fun r => if r.1 = n then some (strOf d.boolReg r.2) else none
partial def dump (d : Dom) (k : Nat) (n : Nat) : String :=
  if k = 0 then "..." else
  match d.nodes[n]? with
  | none => s!"?{n}"
  | some nd =>
    let self := match nd.type, nd.payload with
      | .text, .text t => "'" ++ U t ++ "'"
      | .text, _ => "text?"
      | .document, .tag t => strOf (d.tagReg.map (·.1)) t ++ toString (prs d n) ++ toString (bls d n)
      | .document, _ => "doc?"
      | .root, _ => "R"
      | _, _ => "X"
    self ++ "#" ++ toString n ++ (if n > 1 then s!"^{getParent n d}<{getPrevious n d}" else "") ++ "(" ++ String.intercalate " " ((ch d n).map (dump d (k-1))) ++ ")"
def ids (d : Dom) := dump d 20 1
partial def walk (d : Dom) (k c : Nat) : List Nat := if k = 0 then [999] else match traverseDom c d with | .ok 0 => [] | .ok n => n :: walk d (k-1) n | _ => [888]
partial def walkN (d : Dom) (s k c : Nat) : List Nat := if k = 0 then [999] else match traverseNode c s d with | .ok 0 => [] | .ok n => n :: walkN d s (k-1) n | _ => [888]
def P (s : String) (f : Dom → String) : String := match createDom (S s) with
  | .ok (some d) => f d
  | .ok none => "none"
  | .ub _ => "ub"
  | .longjmp => "longjmp"
  | .hang => "hang"
def E (x : Out (Nat × Dom)) (f : Nat → Dom → String) : String := match x with
  | .ok (n, d) => f n d
  | .ub _ => "ub"
  | .longjmp => "longjmp"
  | .hang => "hang"
def E1 (x : Out Dom) (f : Dom → String) : String := E (x.bind fun d => .ok (0, d)) (fun _ d => f d)
def idsr (n : Nat) (d : Dom) := s!"{n}:" ++ ids d
def q (css : String) (d : Dom) : String := match querySelectorAll (fun _ => 77) (S css) d with
  | .ok (.go l) => toString (l.mergeSort (· ≤ ·))
  | .ok (.fail e) => "err" ++ reprStr e
  | _ => "bad"
def q1 (css : String) (d : Dom) : String := match querySelector (fun _ => 77) (S css) d with
  | .ok (.go (some l)) => toString l
  | .ok (.go none) => "none"
  | .ok (.fail e) => "err" ++ reprStr e
  | _ => "bad"
def jk : Nat → Out Bool := fun _ => .ok false
def doc1 := "<!DOCTYPE html><ul id=\"a b\" hidden  class='c' x=y ><!-- note --> <li>one\n<!-- c -->and a  half</li>\n<li>two <br/></li></ul>"
def doc2 := "<div><p id=x class=k>a b</p><p class=k hidden>t<b>u</b>v</p><span></span><i></i></div><p>tail</p>"
def line (n v : String) : IO Unit := IO.println s!"{n} | {v}"
def nest (k : Nat) : String := String.join (List.replicate k "<x>")
def cmp (a b : String) : String := P a fun d => P b fun e => match equals d e with
  | .ok r => match r.status with | .success => "eq" | _ => "ne"
  | _ => "bad"
def lg (x : Out WBuf) : String := match x with
  | .ok b => U b.sink ++ "|" ++ U b.data
  | .ub _ => "ub" | .longjmp => "lj" | .hang => "hang"
def wb (cap : Nat) : WBuf := ⟨cap, [], [], []⟩
def main : IO Unit := do
  line "C09_parse_render" (P doc1 ids)
  line "C09_parse_render" (P "a<br>b<wbr>c" ids)
  line "C09_parse_render" (P "<x /><y a='1'/>t<z></z >" ids)
  line "C09_parse_render" (P "<a><b><c></c></b><d></d></a>" ids)
  line "C10_blank_document" (P " <!-- a --> <!-- b -->" ids)
  line "C10_blanks_irrelevant" (P "<a> <!--x--> <b></b></a>" ids)
  line "C01_createDom_terminates" (P "a b  <" ids ++ P "x </ y" (fun _ => "t") ++ P "<" (fun _ => "t"))
  line "C02_no_ub_partial" (String.join (["<", "<!", "<!-", "<!--", "<!---", "</", "</a", "<a></a", "<a/", "<a /", "<a b=", "x<!--", "<a>x</", "<a>x</a", "<a><!--"].map fun s => P s (fun _ => "+")))
  line "C03_null_means_too_deep" (P (nest 255) (fun _ => "ok") ++ P (nest 256) (fun _ => "ok"))
  line "C03_success_bounds_depth" (P (nest 257) (fun _ => "ok"))
  line "C04_parsed_tree" (P doc2 ids)
  line "C06_text_normal" (P "  a  b\tc  \n d " (fun d => ids d))
  line "C08_void_no_children" (P "<wbr>x</wbr><br><b>y</b></br><input>z" (fun d => toString (ch d 2, ch d 4)))
  line "C15_traverseDom_preorder" (P doc2 fun d => toString (walk d 60 1))
  line "C16_traverseNode_subtree_partial" (P doc2 fun d => toString (walkN d 2 60 2, walkN d 5 60 5))
  line "C16_textContent_partial" (P doc2 fun d => match getTextContent 5 d with | .ok l => toString (l.map U) | _ => "bad")
  let dn : DocNode := { tag := S "q", boolProps := [S "on"], props := [(S "k", S "v"), (S "k2", S "v2")], isPaired := true }
  line "C17_appendDocumentNode" (P doc2 fun d => E (appendDocumentNode 2 dn d) idsr ++ E (appendDocumentNode 11 dn d) idsr ++ E (appendDocumentNode 3 dn d) idsr)
  line "C18_prependDocumentNode" (P doc2 fun d => E (prependDocumentNode 2 dn d) idsr ++ E (prependDocumentNode 11 dn d) idsr)
  line "C19_appendTextNode" (P doc2 fun d => E (appendTextNode 5 (S "new") d) idsr ++ E (appendTextNode 2 (S "new") d) idsr ++ E (appendTextNode 11 (S "n") d) idsr)
  line "C19_prependTextNode" (P doc2 fun d => E (prependTextNode 5 (S "new") d) (fun _ => ids) ++ E (prependTextNode 2 (S "new") d) (fun _ => ids))
  line "C20_appendTextNode_returns_holder_partial" (P doc2 fun d => E (appendTextNode 5 (S "new") d) (fun n _ => toString n) ++ E (appendTextNode 2 (S "new") d) (fun n _ => toString n))
  line "C20_prependTextNode_returns_holder_partial" (P doc2 fun d => E (prependTextNode 2 (S "new") d) (fun n _ => toString n))
  line "C21_removeNode" (P doc2 fun d => E1 (removeNode 3 d) ids ++ E1 (removeNode 5 d) ids ++ E1 (removeNode 12 d) ids ++ E1 (removeNode 4 d) ids)
  line "C22_removeChildren" (P doc2 fun d => E1 (removeChildren 5 d) ids ++ E1 (removeChildren 2 d) ids ++ E1 (removeChildren 11 d) ids)
  line "C22_setTextContent" (P doc2 fun d => E1 (setTextContent 5 (S "zz") d) ids)
  line "C23_appendHTML" (P doc2 fun d => E (appendHTML jk 2 (S "<u>1</u><w></w>") d) (fun _ => ids) ++ E (appendHTML jk 5 (S "x<w></w>y") d) (fun _ => ids) ++ E (appendHTML jk 12 (S "x<w></w>y") d) (fun _ => ids))
  line "C24_prependHTML" (P doc2 fun d => E (prependHTML jk 2 (S "<u>1</u><w></w>") d) (fun _ => ids) ++ E (prependHTML jk 5 (S "x<w></w>y") d) (fun _ => ids) ++ E (prependHTML jk 12 (S "x<w></w>y") d) (fun _ => ids))
  line "C25_replaceWithDocumentNode" (P doc2 fun d => E (replaceWithDocumentNode 3 dn d) idsr ++ E (replaceWithDocumentNode 5 dn d) idsr ++ E (replaceWithDocumentNode 9 dn d) idsr ++ E (replaceWithDocumentNode 10 dn d) idsr)
  line "C25_replaceWithTextNode" (P doc2 fun d => E (replaceWithTextNode 3 (S "n") d) (fun _ => ids) ++ E (replaceWithTextNode 7 (S "n") d) (fun _ => ids)  ++ E (replaceWithTextNode 10 (S "n") d) (fun _ => ids))
  line "C27_replaceHTML_partial" (P doc2 fun d => E (replaceWithHTML jk 3 (S "<u>1</u><w></w>") d) (fun _ => ids) ++ E (replaceWithHTML jk 10 (S "<u>1</u><w></w>") d) (fun _ => ids) ++ E (replaceWithHTML jk 9 (S "<u>1</u><w></w>") d) (fun _ => ids))
  line "C27_replaceHTML_single_text_partial" (P doc2 fun d => E (replaceWithHTML jk 7 (S "mid") d) (fun _ => ids))
  let st := fun (d : Dom) => s!"{prs d 3}{bls d 3}{prs d 5}{bls d 5}" ++ (match getValue 3 (S "id") d with | .ok v => U v | _ => "bad") ++ (match getValue 5 (S "class") d with | .ok v => U v | _ => "bad") ++
    s!"{hasPropKey 3 (S "id") d}{hasPropKey 5 (S "id") d}{hasPropValue 3 (S "x") d}{hasPropValue 5 (S "x") d}{hasProperty 3 (S "id") (S "x") d}{hasProperty 3 (S "id") (S "k") d}{hasBoolProp 5 (S "hidden") d}{hasBoolProp 3 (S "hidden") d}"
  line "C29_attribute_store" (P doc2 fun d => st d ++ E1 (addProperty 5 (S "n") (S "m") d) st ++ E1 (addBoolProperty 3 (S "n") d) st)
  line "C29_attribute_store" (P doc2 fun d => st (removeProperty 5 (S "class") d) ++ st (removeBoolProperty 5 (S "hidden") d) ++ (match setPropertyValue 5 (S "class") (S "nu") d with | .ok (b, d) => s!"{b}{st d}" | _ => "bad"))
  line "C29_set_reports" (P doc2 fun d => (match setPropertyValue 5 (S "class") (S "nu") d with | .ok (b, _) => s!"{b}" | _ => "bad") ++ (match setPropertyValue 5 (S "id") (S "nu") d with | .ok (b, _) => s!"{b}" | _ => "bad"))
  line "C30_other_nodes_untouched" (P doc2 fun d => (fun d => s!"{prs d 3}{bls d 3}") (removeProperty 5 (S "class") d) ++ (match setPropertyValue 5 (S "class") (S "nu") d with | .ok (_, d) => s!"{prs d 3}" | _ => "bad"))
  line "C11_registry_of_parsed" (P doc2 fun d => toString (d.tagReg.map (fun x => U x.1)) ++ toString (d.keyReg.map U) ++ toString (d.valReg.map U) ++ toString (d.tagMap.contains (S "p"), d.keyMap.contains (S "class"), d.keyMap.contains (S "zzz")))
  line "C12_nodes_exhaustion" (P "" fun d => O ((createNode .text { d with nodes := List.replicate 65535 ⟨.text, .text []⟩ }).bind fun x => .ok x.1) ++ O ((createNode .text { d with nodes := List.replicate 65534 ⟨.text, .text []⟩ }).bind fun x => .ok x.1))
  line "C31_compound_partial" (P doc2 fun d => q "p[class=k]" d ++ q "p[id]" d ++ q "p[hidden]" d ++ q "b" d ++ q "#x" d ++ q ".k" d ++ q "p[class=zz]" d ++ q "p[class=k][hidden]" d)
  line "C32_combinators_partial" (P doc2 fun d => q "div > p" d ++ q "div b" d ++ q "div > b" d ++ q "p + p" d ++ q "p + span" d ++ q "p ~ span" d ++ q "p ~ i" d ++ q "p + i" d ++ q "div > p > b" d ++ q "div p b" d)
  line "C32_two_tags_partial" (P doc2 fun d => q "div>p" d ++ q "div b" d ++ q "p+p" d ++ q "p~i" d)
  line "C33_querySelector_first" (P doc2 fun d => q1 "p" d ++ q1 "p, div" d ++ q1 "b" d ++ q1 "zz" d)
  line "C34_total" (P doc2 fun d => String.join (["", " ", "p[", "p[a", "p[a=", ">", "p >", "p,", ",", "[a]", "p[a]]"].map fun c => q c d))
  line "C34_errors" (P doc2 fun d => q "p[hidden][hidden][hidden][hidden][hidden][hidden][hidden]" d ++ q "p[hidden][hidden][hidden][hidden][hidden][hidden][hidden][hidden]" d ++ q "zz" d)
  line "C35_union" (P doc2 fun d => q "b, i" d ++ q "b,i, span" d)
  line "C36_parsed_partial" (P doc2 fun d => q "[class]" d)
  line "C37_class_at_end_partial" (P doc2 fun d => q "div > .k" d ++ q "div .k" d)
  line "C38_withQuery_partial" (P doc2 fun d => match withQuery (fun _ => 77) (S "span") (appendTextNode · (S "w")) d with | .ok (n, d) => idsr n d | _ => "bad")
  line "C39_reflexive" (cmp doc2 doc2)
  line "C39_duplicate" (P doc2 fun d => match duplicateDom d with | .ok e => ids e | _ => "bad")
  line "C40_symmetric" (toString ([("<a></a>", "<a></a><b></b>"), ("<a><c></c></a>", "<a></a>"), ("<a k=v></a>", "<a></a>"), ("x", "<x></x>")].map fun (a, b) => cmp a b == cmp b a))
  line "C41_sound_partial" (cmp "<a></a>" "<b></b>" ++ cmp "<a></a>" "<a></a><b></b>" ++ cmp "<a></a><b></b>" "<a></a>" ++ cmp "<a><c></c></a>" "<a></a>" ++ cmp "<a k=v></a>" "<a k=w></a>" ++ cmp "<a k=v></a>" "<a></a>" ++ cmp "<a h></a>" "<a></a>" ++ cmp "<a h></a>" "<a i></a>" ++ cmp "x" "y" ++ cmp "<a>x</a>" "<a>y</a>" ++ cmp "<a></a><b>1</b>" "<a></a><b>2</b>" ++ cmp "<a></a>" "<a/>")
  line "C41_complete_partial" (cmp doc1 doc1 ++ cmp "<a k=v l=w h i></a>" "<a l=w k=v i h></a>")
  line "C54_print_partial" (P doc2 fun d => match printHTML d with | .ok s => U s | _ => "bad")
  line "C54_print_of_source_partial" (P doc1 fun d => match printHTML d with | .ok s => U s | _ => "bad")
  line "C54_print_of_source_partial" (P "<a x=1 y z=2 w></a><br>" fun d => match printHTML d with | .ok s => U s | _ => "bad")
  line "C55_print_parse_partial" (P "<a x=1 z=2></a><br>t<b><c>u</c></b>" fun d => match printHTML d with | .ok s => P (U s) ids | _ => "bad")
  let vs := (List.range 700).map (fun i => i * 37 % 60000 + 1)
  line "C48_growing_set" (match u16InsertAll vs U16Set.fresh with
    | .ok m => toString (m.len, ((m.toList 0).mergeSort (· ≤ ·)).length, vs.all (fun v => match u16Contains v m with | .ok b => b | _ => false), (match u16Contains 60001 m with | .ok b => b | _ => true), match u16ToArray m with | .ok l => l.length | _ => 0)
    | _ => "bad")
  line "C49_string_set" ((do
      let m ← strSetInsert (S "a") StrSet.fresh
      let m ← strSetInsert (S "b") m
      let m ← strSetInsert (S "a") m
      Out.ok (toString (m.len, m.buf.filter (· ≠ []))) : Out String) |> O)
  line "C43_ordered" (lg (do let b ← appendToBuffer (S "hello world") ⟨false, false⟩ (wb 4); appendToBuffer (S "again") ⟨true, true⟩ b))
  line "C43_flush_delivers" (lg (do let b ← appendToBuffer (S "hello world") ⟨false, false⟩ (wb 4); flushIgnore b))
  line "C44_unsigned" (lg (appendUint64 0 ⟨false,true⟩ (wb 64)) ++ lg (appendUint64 18446744073709551615 ⟨false,true⟩ (wb 64)) ++ lg (appendUint64MinSize 42 5 ⟨false,true⟩ (wb 64)))
  line "C44_signed" (lg (appendPtrdiff (-9223372036854775808) ⟨false,true⟩ (wb 64)) ++ lg (appendPtrdiff (-12) ⟨false,true⟩ (wb 64)) ++ lg (appendPtrdiffMinSize (-42) 5 ⟨false,true⟩ (wb 64)) ++ lg (appendPtrdiff 0 ⟨false,true⟩ (wb 64)))
  line "C57_prefix_partial" (U (ptrText 0x7ffe11))
  line "C60_nothing_lost_partial" (lg (appendToBuffer (S "hello world") ⟨false, true⟩ ⟨4, [], [], [some 1, some 2, some 1]⟩))
  line "C61_nonnegative_partial" (lg (appendInt 17 ⟨false, true⟩ (wb 64)))
  line "C62_six_decimals" (match fractionText 42 with | .ok s => U s | _ => "bad")
  line "C59_identifiers_last" (P (String.join (List.replicate 300 "<b></b>")) fun d => toString d.nodes.length)
  let ty := fun (d : Dom) => toString (d.nodes.map fun n => match n.type with | .removed => "X" | .text => "t" | .document => "d" | .root => "r" | .error => "e")
  line "C15_traverseDom_preorder" (P "<a><b><c></c></b></a><d></d>" fun d => toString (walk d 60 1))
  line "C29_attribute_store" (P "<p a=1 b=1 a=2 c=1></p>" fun d => toString (prs d 2) ++ E1 (addProperty 2 (S "a") (S "9") d) (fun d => toString (prs d 2)))
  line "C21_removeNode" (P doc2 fun d => E1 (removeNode 5 d) ty)
  line "C22_removeChildren" (P doc2 fun d => E1 (removeChildren 2 d) ty)
  line "C63_detached_partial" (P doc2 fun d => E1 (removeNode 2 d) fun d => toString ((List.range 13).map fun i => (getNext i d, getPrevious i d, getFirstChild i d)))
  line "C19_appendTextNode" (P doc2 fun d => E (appendTextNode 5 (S "new") d) fun _ => ty)
  line "C25_replaceWithDocumentNode" (P doc2 fun d => E (replaceWithDocumentNode 3 dn d) fun _ => ty)
  line "C25_replaceWithTextNode" (P "<div><b></b>txt</div>" fun d => E (replaceWithTextNode 3 (S "n") d) (fun _ => ids))
  line "C31_compound_partial" (P "<p c=x d></p><p c=y></p><p d></p>" fun d => q "p[c=x]" d ++ q "p[d][c=x]" d ++ q "p[c=y]" d)
  line "C35_union" (P doc2 fun d => q "p, div > b" d ++ q "b, p, i" d)
  line "C41_sound_partial" (cmp "<p k=x l=y></p>" "<p k=x l=></p>" ++ cmp "<p k=x></p>" "<p k=x l=y></p>" ++ cmp "<p k=x l=y></p>" "<p k=x></p>")
  line "C39_duplicate" (P doc2 fun d => match duplicateDom d with | .ok e => toString (d.keyReg.map fun k => (e.keyMap.contains k, e.valMap.contains k, e.tagMap.contains k)) | _ => "bad")
  line "C62_six_decimals" (match fractionText 5 with | .ok s => U s | _ => "bad")
  line "C27_replaceHTML_partial" (P "<p>x<b></b>z</p>" fun d => E (replaceWithHTML jk 4 (S "y<u></u>w") d) idsr)
  line "C38_withQuery_partial" (P doc2 fun d => match withQuery (fun _ => 77) (S "p[hidden][hidden][hidden][hidden][hidden][hidden][hidden][hidden]") (appendTextNode · (S "w")) d with | .ok (n, d) => idsr n d | _ => "bad")
  line "C41_sound_partial" (cmp "<p k=x l=y></p>" "<p k=x l=''></p>" ++ cmp "<p l=y></p>" "<p l=''></p>" ++ cmp "<p l=''></p>" "<p l=y></p>")
  line "C49_full_aborts" (O (List.foldl (fun (m : Out StrSet) i => m.bind (strSetInsert (S (toString i)))) (.ok StrSet.fresh) (List.range 100) |>.bind fun m => .ok m.len))
  line "C06_text_normal" (P "a\r b \r\n c\rd" ids)
  line "C29_attribute_store" (P "<p on></p><b on off></b><i off></i>" fun d => toString (bls (removeBoolProperty 4 (S "off") d) 2, bls (removeBoolProperty 4 (S "off") d) 3, bls (removeBoolProperty 4 (S "off") d) 4) ++ toString (bls (removeBoolProperty 3 (S "off") d) 3, bls (removeBoolProperty 3 (S "on") d) 3, bls (removeBoolProperty 3 (S "on") d) 2))
  line "C30_other_nodes_untouched" (P "<p on></p><b on off></b><i off></i>" fun d => toString (bls (removeBoolProperty 4 (S "off") d) 3) ++ toString (bls (removeBoolProperty 3 (S "on") d) 2))
  line "C27_replaceHTML_single_text_partial" (P "<p>x<b></b>z</p>" fun d => E (replaceWithHTML jk 4 (S "mid") d) idsr)
  line "C27_replaceHTML_single_text_partial" (P "<p><b></b><i></i>z</p><p>x<b></b><i></i></p>" fun d => E (replaceWithHTML jk 3 (S "mid") d) idsr ++ E (replaceWithHTML jk 4 (S "mid") d) idsr ++ E (replaceWithHTML jk 8 (S "mid") d) idsr ++ E (replaceWithHTML jk 9 (S "mid") d) idsr)
  let rows := fun (d : Dom) => toString (d.pc.mergeSort (fun a b => a.2 ≤ b.2))
  line "C63_detached_partial" (P doc2 fun d => E (appendHTML jk 2 (S "<u>1</u><w></w>") d) fun _ d => rows d ++ toString (List.range 20 |>.map fun n => getParent n d))
  line "C63_detached_partial" (P doc2 fun d => E (appendHTML jk 2 (S "<u>1</u><w></w>") d) fun _ d => E1 (removeNode 14 d) fun d => toString (List.range 20 |>.map fun n => (getNext n d, getPrevious n d, getFirstChild n d)) ++ ids d)
  line "C31_compound_partial" (P "<!DOCTYPE html><p !x=!y></p><q></q>" fun d => q "!DOCTYPE" d ++ q "q" d ++ q "p[!x=!y]" d ++ q "p[ !x = !y ]" d ++ q "p\n" d ++ q "p\t[!x=!y]" d ++ q "\tq\r" d)
  line "C32_combinators_partial" (P doc2 fun d => q "div\n>\np" d ++ q "div\tp\tb" d ++ q "p\t+\tp" d ++ q "p[class=k]~i" d ++ q "p[ class = k ] > b" d ++ q "p[hidden ] b" d ++ q "p ~ i, p[hidden ]~i" d)
  line "C32_combinators_partial" (P "<a></a><b></b><c></c><d></d><e></e>" fun d => q "a ~ e" d ++ q "a ~ b" d ++ q "a ~ d" d ++ q "b + c" d ++ q "a + c" d)
  line "C33_querySelector_first" (P doc2 fun d => q1 "p p" d ++ q1 "b b, p" d ++ q1 "zz" d ++ q1 "div[class=k]" d)
  line "C34_total" (P doc2 fun d => q "p > > b" d ++ q "[" d ++ q "p[" d ++ q "." d ++ q "p > [" d)
  line "C34_empty_compound" (P doc2 fun d => q "[" d ++ q "[]" d ++ q "p > ]" d ++ q "p >" d ++ q "*x" d ++ q "[,p" d)
  line "C38_no_match_partial" (P doc2 fun d => match withQuery (fun _ => 77) (S "p p") (fun n d => .ok (n + 100, d)) d with | .ok (n, d) => idsr n d | _ => "bad")
  line "C40_symmetric" (toString ([("<a k=v l=w></a>", "<a k=v l=z></a>"), ("<a h i></a>", "<a h j></a>"), ("<a h></a>", "<a h i></a>"), ("t<a></a>", "<a></a>"), ("<a></a>u", "<a></a>t")].map fun (a, b) => cmp a b == cmp b a))
  line "C41_sound_partial" (cmp "<a k=v l=w></a>" "<a k=v l=z></a>" ++ cmp "<a h i></a>" "<a h j></a>" ++ cmp "<a h i></a>" "<a h></a>" ++ cmp "<a h></a>" "<a h i></a>" ++ cmp "t" "u" ++ cmp "t<a></a>" "<a></a>" ++ cmp "" "<a></a>" ++ cmp "<a></a>" "" ++ cmp "" "" ++ cmp "<a k=v l=w m=x></a>" "<a k=v l=w n=x></a>")
  let pr := fun (d : Dom) => match printHTML d with | .ok s => U s | _ => "bad"
  line "C74_parsed" (P "<x/><x></x><y></y><y/><br><br></br><z a />" fun d => toString (d.tagReg.map fun t => t.2) ++ pr d)
  line "C74_edit" (P "<x/><y></y>" fun d => E (appendDocumentNode 1 { tag := S "x", boolProps := [], props := [], isPaired := true } d) fun _ d => E (appendDocumentNode 1 { tag := S "w", boolProps := [], props := [], isPaired := false } d) fun _ d => E (appendDocumentNode 1 { tag := S "w", boolProps := [], props := [], isPaired := true } d) fun _ d => toString (d.tagReg.map fun t => t.2) ++ pr d)
  line "C74_edit" (P "<x/><y></y>" fun d => E (prependDocumentNode 1 { tag := S "y", boolProps := [], props := [], isPaired := false } d) fun _ d => E (replaceWithDocumentNode 2 { tag := S "v", boolProps := [], props := [], isPaired := false } d) fun _ d => E (appendHTML jk 1 (S "<v></v><t/><y/>") d) fun _ d => toString (d.tagReg.map fun t => t.2) ++ pr d)
  line "C76_mismatched_end_tag" (P "<a><b>x</a></b>y</a><c></b></c>" ids)
  line "C76_parse_broken" (P "</q>a < b<div><p>x</b> y<!--c--></p z></q> <<i/></div ><ul><li>1<li>2" ids)
  line "C76_parse_broken" (P "<p\n>x<\nq</p\t>y" ids ++ P "<a><b></a></b>" ids ++ P "<p>x</" ids)
  line "C77_query_kept" (P doc2 fun d => E1 (removeNode 2 d) fun d => q "div > p" d ++ q "p[hidden]" d ++ q "zz" d ++ q "[" d)
  line "C77_names_kept" (P doc2 fun d => E (appendHTML jk 2 (S "<u>1</u><w k=l></w>") d) fun _ d => toString (["div", "p", "b", "span", "u", "w"].map fun s => d.tagMap.contains (S s)) ++ toString (["id", "class", "k"].map fun s => d.keyMap.contains (S s)))
  line "C31_exact_partial" (P "<p>x</p>" fun d => match querySelectorAll (fun _ => 1) (S "p") d with | .ok (.go l) => toString (l.mergeSort (· ≤ ·)) | _ => "bad")
  line "C36_removed_exact_partial" (P doc2 fun d => E1 (removeNode 2 d) fun d => q "[class=k]" d ++ q "p[class=k]" d ++ q "[hidden]" d ++ q "p" d)
  line "C26_exact_partial" (P doc2 fun d => E (replaceWithDocumentNode 2 dn d) fun _ d => q "p[class=k]" d ++ q "b" d ++ q "p" d ++ q "q" d)
