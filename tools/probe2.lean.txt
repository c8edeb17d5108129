-- Concrete instances of the property theorems about memory, strings, paths, tries and files (C42, C45-C47, C50-C53, C58,
-- C64-C73).  Each line prints what the named theorem determines; a line that differs from the unedited model's line means
-- that the theorem is false of the edited model.
import Verif.Spec.Memory
import Verif.Spec.Pool
import Verif.Spec.Buddy
import Verif.Spec.Strings
import Verif.Spec.Path
import Verif.Spec.Trie
import Verif.Spec.Files
import Verif.Model.Files
import Verif.Model.Trie
import Verif.Model.Path
open Flo Flo.Spec
def S (s : String) : Str := s.toUTF8.toList
def U (s : Str) : String := toString s
def m0 : Int → UInt8 := fun x => UInt8.ofNat (((x * 7 + 3) % 250).toNat + 1)
def range (a b : Int) : List Int := (List.range (b - a).toNat).map (fun (i : Nat) => a + (i : Int))
def oc {α : Type} : Out α → String
  | .ok _ => "ok"
  | .longjmp => "longjmp"
  | .ub _ => "ub"
  | .hang => "hang"
-- C45
def fits (a : Arena) (r : Req) : Bool := (range a.beg (a.stop + 1)).any fun p => p % r.align == 0 && decide (p + r.size * r.count ≤ a.stop)
def checkAllocs (a : Arena) (rs : List Req) : String :=
  match runAllocs rs a with
  | .ok (ps, a') =>
    let pairs := rs.zip ps
    let each := pairs.all fun (r, p) => match p with
      | none => r.nullOnFail
      | some p => p % r.align == 0 && decide (a.beg ≤ p) && (range p (p + r.size * r.count)).all fun x => decide (a.beg ≤ x ∧ x < a.stop) && (a'.mem x == if r.zero then 0 else a.mem x)
    let blocks := pairs.filterMap fun (r, p) => p.map fun p => (p, p + r.size * r.count)
    let dis := (List.range blocks.length).all fun i => (List.range blocks.length).all fun j => i == j || match blocks[i]?, blocks[j]? with
      | some (p, e), some (p', e') => (range p e).all fun x => !(decide (p' ≤ x ∧ x < e'))
      | _, _ => true
    s!"{ps.length} {each} {dis}"
  | x => oc x
def reqs : List (List Req) := [[⟨3,1,1,false,false⟩,⟨8,8,2,true,false⟩,⟨4,4,1,false,true⟩,⟨4,4,100,false,true⟩,⟨2,2,3,true,true⟩],
  [⟨1,1,3,true,false⟩,⟨4,16,2,true,false⟩,⟨1,1,1,true,false⟩,⟨16,8,1,false,false⟩],[⟨1,1,0,true,false⟩,⟨5,1,1,false,false⟩,⟨1,1,5,true,false⟩]]
def ar (b e : Int) : Arena := ⟨b, e, m0⟩
def fail1 (a : Arena) (r : Req) : String := s!"{fits a r} " ++ match arenaAlloc r.size r.align r.count r.zero r.nullOnFail a with
  | .ok (some _, _) => "some"
  | .ok (none, _) => "none"
  | x => oc x
def copy1 (a : Arena) (data size align count : Int) : String := match copyToArena data size align count a with
  | .ok (p, a') => toString (p % align == 0 && decide (a.beg ≤ p) && ((range 0 a.beg).all fun x => a'.mem x == a.mem x) &&
      (range 0 (size * count)).all fun t => decide (p + t < a.stop) && a'.mem (p + t) == a.mem (data + t))
  | x => oc x
-- C46, C47, C42
def kOK : List HOp → Heap → List (List Elem) → Arena → String
  | [], _, _, _ => "done"
  | op :: ops, h, vs, a =>
    match runH op h with
    | .ok h' =>
      let vs := absH op vs
      let rd := h'.arrs.map (fun ks => readArr h'.arena.mem ks.1 ks.2)
      let place := (List.range h'.arrs.length).all fun i => match h'.arrs[i]? with
        | some (k, s) => match s.buf with
          | some b => decide (s.len ≤ s.cap ∧ b % k.align = 0 ∧ a.beg ≤ b ∧ b + k.size * s.cap ≤ a.stop) &&
            (List.range h'.arrs.length).all fun j => i == j || match h'.arrs[j]? with
              | some (k', s') => match s'.buf with
                | some b' => decide (b + k.size * s.cap ≤ b' ∨ b' + k'.size * s'.cap ≤ b)
                | none => true
              | none => true
          | none => true
        | none => true
      if rd == vs && place then kOK ops h' vs a else s!"bad {rd == vs} {place} at {ops.length}"
    | x => oc x
def ops1 : List HOp := [.new ⟨4,4⟩, .push 0 false [1,2,3,4], .new ⟨2,2⟩, .push 0 true [5,6,7,8], .push 1 false [9,8], .push 0 false [1,1,1,1], .push 0 true [2,2,2,2],
  .push 0 false [3,3,3,3], .set 0 1 [7,7,7,7], .copy 0, .push 2 false [4,4,4,4], .push 0 false [6,6,6,6], .push 2 false [4,4,4,5], .alloc ⟨3,1,1,true,false⟩, .push 1 true [1,2], .push 1 false [3,4],
  .push 1 false [5,6], .set 2 0 [0,0,0,0]]
def ops2 : List HOp := [.new ⟨1,1⟩, .append 0 [1,2,3], .append 0 [4], .append 0 [5,6,7,8,9,10], .new ⟨1,1⟩, .append 1 [20], .append 0 [11,12,13,14,15,16], .append 0 [], .append 1 [21,22,23,24],
  .copy 0, .append 2 [9,9], .append 0 [8], .push 2 false [1]]
def slot (zero : Bool) : String := match runHs (ops1.take 6) ⟨ar 33 2000, []⟩ with
  | .ok h => match h.arrs[0]? with
    | some (k, s) => match arrPush k.size k.align zero s h.arena with
      | .ok (p, s', a') => toString (s'.buf == some (p - k.size * s.len) && s'.len == s.len + 1 && decide (p + k.size ≤ (s'.buf.getD 0) + k.size * s'.cap) && readArr a'.mem k { s' with len := s.len } == readArr h.arena.mem k s)
      | x => oc x
    | none => "?"
  | x => oc x
-- pool
inductive PO | al (z : Bool) | fr (i : Nat) | wr (i : Nat) (o : Int) (d : List UInt8)
def poolRun (buffer cap chunk : Int) : List PO → Pool → List Int → String
  | [], _, live => s!"end {live.length}"
  | .al z :: ops, pool, live => match poolAlloc z true pool with
    | .ok (some p, pool') =>
      if decide (live.length < chunkCount cap chunk) && decide (buffer ≤ p ∧ p + chunk ≤ buffer + cap) && (p - buffer) % chunk == 0 && (live.all fun q => decide (p + chunk ≤ q ∨ q + chunk ≤ p)) &&
        ((range (buffer - 20) (buffer + cap + 20)).all fun x => decide (p ≤ x ∧ x < p + chunk) || pool'.mem x == pool.mem x) &&
        (!z || (range p (p + chunk)).all fun x => pool'.mem x == 0) then poolRun buffer cap chunk ops pool' (p :: live) else s!"bad alloc at {ops.length}"
    | .ok (none, _) => if live.length = chunkCount cap chunk then poolRun buffer cap chunk ops pool live else "refused"
    | x => oc x
  | .fr i :: ops, pool, live => match live[i]? with
    | some p =>
      let pool' := freePoolNode p pool
      if live.all fun q => q == p || (range q (q + chunk)).all fun x => pool'.mem x == pool.mem x then poolRun buffer cap chunk ops pool' (live.erase p) else "bad free"
    | none => poolRun buffer cap chunk ops pool live
  | .wr i o d :: ops, pool, live => match live[i]? with
    | some p => poolRun buffer cap chunk ops { pool with mem := memWrite (p + o) d pool.mem } live
    | none => poolRun buffer cap chunk ops pool live
def pops : List PO := [.al false, .al true, .wr 0 0 [9,9,9,9,9,9,9,9,9,9], .al false, .fr 1, .al true, .wr 0 3 [1,2,3,4,5,6,7,8,9,10], .fr 2, .fr 0, .al false, .al false, .al false, .al true, .al false, .fr 3, .al true, .fr 0, .fr 0, .fr 0, .al true, .al false, .al true, .al false, .al true]
def poolJump : String := match poolAlloc false false (createPool 4096 32 16 m0) with
  | .ok (some _, p) => match poolAlloc false false p with
    | .ok (some _, p) => oc (poolAlloc false false p)
    | x => oc x
  | x => oc x
def poolReset : String := match poolAlloc false false (createPool 4096 32 16 m0) with
  | .ok (some _, p) => match poolAlloc false false p with
    | .ok (some _, p) => poolRun 4096 32 16 [.al false, .al true, .al false] (freePool p) []
    | x => oc x
  | x => oc x
-- buddy
inductive BO | al (n : Nat) (z : Bool) | fr (i : Nat) | wr (i : Nat)
def buddyRun (data : Int) (total : Nat) : List BO → Buddy → List Owned → String
  | [], _, _ => "end"
  | .al n z :: ops, b, live => match buddyAlloc n 1 z true b with
    | .ok (some p, b') =>
      if decide (data + 16 ≤ p ∧ p + (n : Int) ≤ data + total ∧ (p - data) % 16 = 0) && (live.all fun o => decide (p + (n : Int) + 16 ≤ o.ptr ∨ o.ptr + o.bytes + 16 ≤ p)) &&
        (live.all fun o => (range o.ptr (o.ptr + o.bytes)).all fun x => b'.mem x == b.mem x) && (!z || (range p (p + n)).all fun x => b'.mem x == 0)
      then buddyRun data total ops b' (⟨p, n⟩ :: live) else s!"bad alloc at {ops.length}"
    | .ok (none, b') => if live.all fun o => (range o.ptr (o.ptr + o.bytes)).all fun x => b'.mem x == b.mem x then buddyRun data total ops b' live else "bad refusal"
    | x => oc x
  | .fr i :: ops, b, live => match live[i]? with
    | some o => match freeBuddy o.ptr b with
      | .ok b' => if live.all fun o' => o' == o || (range o'.ptr (o'.ptr + o'.bytes)).all fun x => b'.mem x == b.mem x then buddyRun data total ops b' (live.erase o) else s!"bad free at {ops.length}"
      | x => oc x
    | none => buddyRun data total ops b live
  | .wr i :: ops, b, live => match live[i]? with
    | some o => buddyRun data total ops { b with mem := memWrite o.ptr (List.replicate o.bytes 255) b.mem } live
    | none => buddyRun data total ops b live
def bops : List (List BO) := [
  [.al 40 false, .wr 0, .al 24 true, .al 100 false, .wr 0, .fr 1, .al 10 true, .wr 0, .al 48 true, .fr 0, .fr 0, .al 200 true, .wr 0, .al 200 true, .fr 1, .al 30 true, .fr 0, .al 5 false, .al 5 false, .al 5 false, .wr 0, .wr 1, .wr 2, .fr 1, .al 30 true, .al 30 true],
  [.al 16 true, .al 16 true, .wr 0, .al 16 true, .wr 0, .al 16 true, .fr 2, .fr 2, .al 48 true, .wr 0, .fr 1, .fr 1, .al 48 true, .wr 0, .al 100 true, .al 100 true, .fr 0, .al 230 true],
  [.al 240 false, .wr 0, .al 230 true, .wr 0, .al 1 true, .fr 0, .al 230 true, .al 16 true, .wr 0, .al 16 true, .al 48 false, .wr 0, .al 48 false, .fr 0, .fr 0, .fr 0, .al 60 true],
  [.al 496 true], [.al 497 true, .al 1 true, .wr 0], [.al 17 true, .al 17 true, .al 17 true, .al 17 true, .al 17 true, .al 17 true, .al 17 true, .al 17 true, .al 17 true, .wr 0, .wr 3, .fr 2, .fr 4, .fr 5, .al 100 true, .wr 0, .al 40 true, .wr 0, .fr 0, .fr 0, .fr 0, .al 70 false, .wr 0, .al 70 true]]
def fresh1 (n : Nat) : String := match buddyAlloc n 1 true false (createBuddy 4096 512 m0) with
  | .ok (some p, _) => toString (decide (4096 + 16 ≤ p ∧ p + (n : Int) ≤ 4096 + 512))
  | x => oc x
-- random histories; the memory is copied into an array after each step to keep reads cheap
@[noinline] def flatA (m : Int → UInt8) : ByteArray := ⟨(range 4000 4700).toArray.map m⟩
@[noinline] def rdA (a : ByteArray) (x : Int) : UInt8 := if decide (4000 ≤ x ∧ x < 4700) then a.get! (x - 4000).toNat else m0 x
def lcg (x : Nat) : Nat := (x * 6364136223846793005 + 1442695040888963407) % 18446744073709551616
def rop (r : Nat) : BO := let k := r / 65536 % 100; let v := r / 16777216
  if k < 45 then .al (v % 60) (v % 2 == 0) else if k < 55 then .al (v % 300) true else if k < 60 then .wr (v % 4) else .fr (v % 8)
def randRun : Nat → Nat → Buddy → List Owned → String
  | 0, _, _, live => s!"end"
  | k + 1, r, b, live =>
    let a := flatA b.mem
    let b := { b with mem := rdA a }
    let next := fun b live => randRun k (lcg r) b live
    match rop r with
    | .al n z => match buddyAlloc n 1 z true b with
      | .ok (some p, b') =>
        if decide (4096 + 16 ≤ p ∧ p + (n : Int) ≤ 4096 + 512 ∧ (p - 4096) % 16 = 0) && (live.all fun o => decide (p + (n : Int) + 16 ≤ o.ptr ∨ o.ptr + o.bytes + 16 ≤ p)) &&
          (live.all fun o => (range o.ptr (o.ptr + o.bytes)).all fun x => b'.mem x == b.mem x) && (!z || (range p (p + n)).all fun x => b'.mem x == 0)
        then next b' (⟨p, n⟩ :: live) else s!"bad alloc"
      | .ok (none, b') => if live.all fun o => (range o.ptr (o.ptr + o.bytes)).all fun x => b'.mem x == b.mem x then next b' live else "bad refusal"
      | x => oc x
    | .fr i => match live[i]? with
      | some o => match freeBuddy o.ptr b with
        | .ok b' => if live.all fun o' => o' == o || (range o'.ptr (o'.ptr + o'.bytes)).all fun x => b'.mem x == b.mem x then next b' (live.erase o) else s!"bad free"
        | x => oc x
      | none => next b live
    | .wr i => match live[i]? with
      | some o => next { b with mem := memWrite o.ptr (List.replicate o.bytes 255) b.mem } live
      | none => next b live
-- C75: the operations do not depend on memory outside
def out1 : Int → UInt8 := fun x => UInt8.ofNat (((x * 11 + 5) % 199).toNat + 3)
def agree (lo hi : Int) (a b : Int → UInt8) : Bool := (range lo hi).all fun x => a x == b x
def conf : List BO → Buddy → Buddy → List Owned → String
  | [], _, _, _ => "end"
  | .al n z :: ops, b, c, live => match buddyAlloc n 1 z true b, buddyAlloc n 1 z true c with
    | .ok (p, b'), .ok (q, c') =>
      if p == q && agree 4096 4608 b'.mem c'.mem && agree 4000 4096 c'.mem c.mem && agree 4608 4700 c'.mem c.mem
      then conf ops b' c' (match p with | some p => ⟨p, n⟩ :: live | none => live) else "bad"
    | x, _ => oc x
  | .fr i :: ops, b, c, live => match live[i]? with
    | some o => match freeBuddy o.ptr b, freeBuddy o.ptr c with
      | .ok b', .ok c' => if agree 4096 4608 b'.mem c'.mem && agree 4000 4096 c'.mem c.mem && agree 4608 4700 c'.mem c.mem then conf ops b' c' (live.erase o) else "bad"
      | x, _ => oc x
    | none => conf ops b c live
  | .wr _ :: ops, b, c, live => conf ops b c live
-- C73: equal requests until one is refused
def fillCount (total n : Nat) : Nat → Buddy → Nat
  | 0, _ => 0
  | k + 1, b => match buddyAlloc n 1 false true b with
    | .ok (some _, b') => let a := flatA b'.mem; fillCount total n k { b' with mem := rdA a } + 1
    | _ => 0
def refree (ns : List Nat) (i : Nat) : String :=
  match ns.foldlM (fun (s : Buddy × List Owned) (n : Nat) => do
      let (p, b) ← buddyAlloc n 1 false true s.1
      Out.ok ((b, match p with | some p => s.2 ++ [(⟨p, n⟩ : Owned)] | none => s.2) : Buddy × List Owned)) ((createBuddy 4096 512 m0, []) : Buddy × List Owned) with
  | .ok (b, live) => match live[i]? with
    | some o => match freeBuddy o.ptr b with
      | .ok b' => match buddyAlloc o.bytes 1 false true b' with | .ok (some _, _) => "granted" | .ok (none, _) => "refused" | x => oc x
      | x => oc x
    | none => "?"
  | x => oc x
-- strings
def firsts (s : Str) (ch : UInt8) (k : Nat) := match firstOccurenceOfFrom s ch k with | .ok i => toString i | x => oc x
def lasts (s : Str) (ch : UInt8) := match lastOccurenceOf s ch with | .ok i => toString i | x => oc x
def outS {α : Type} [Repr α] : Out α → String
  | .ok a => reprStr a
  | x => oc x
def app1 (a : Arena) (s1 s2 : View) : String := match stringAppend s1 s2 a with
  | .ok (v, a') => toString (decide (a.beg ≤ v.buf ∧ v.buf + v.len ≤ a.stop ∧ a'.beg = v.buf + v.len ∧ a'.stop = a.stop ∧ v.len = s1.len + s2.len)) ++
      toString (View.bytes v a'.mem == View.bytes s1 a.mem ++ View.bytes s2 a.mem) ++ toString ((range 0 200).all fun x => decide (v.buf ≤ x ∧ x < v.buf + v.len) || a'.mem x == a.mem x)
  | x => oc x
def cp1 (dest src : View) : String :=
  let r := stringCopy dest src m0
  toString (r.1.buf == dest.buf && View.bytes r.1 r.2 == View.bytes src m0 && r.2 (dest.buf + src.len) == 0 && (range 0 200).all fun x => decide (dest.buf ≤ x ∧ x < dest.buf + dest.len) || r.2 x == m0 x)
-- tries: the order of the elements is not determined, so sort
def sortS (l : List Str) : List Str := l.mergeSort (fun a b => toString a ≤ toString b)
def strSet (ks : List Str) : String := match strInserts ks .nil with
  | .ok (rs, t) => s!"{rs} " ++ match elements (fun s => s.length == 0) t with
    | .ok es => toString (sortS es)
    | x => oc x
  | x => oc x
def u16Set (ks : List UInt16) : String := match u16Inserts ks .nil with
  | .ok (rs, t) => s!"{rs} " ++ match elements (fun s => s == 0) t with
    | .ok es => toString (es.mergeSort (fun a b => a.toNat ≤ b.toNat))
    | x => oc x
  | x => oc x
def mapT (ks : List (Str × UInt16)) : String × String := match mapInserts ks .nil with
  | .ok (rs, t) => (toString rs, match elements (fun s => s.2 == 0) t with
    | .ok es => toString ((es.map fun (k, v) => toString k ++ toString v).mergeSort)
    | x => oc x)
  | x => (oc x, "")
def depth16 (ks : List UInt16) : String := match u16Inserts ks .nil with
  | .ok (_, t) => toString (ks.all fun k => decide (visits top16 shl16 (fun d => k == d) (hash16 k) t ≤ 9))
  | x => oc x
def names : List Str := (List.range 40).map fun i => S s!"n{i}"
def table : String := match (names ++ [S "n3", S "", S "n7"]).foldlM (fun (m : AutoMap × List Nat) k => do let r ← m.1.insert k; Out.ok (r.map, m.2 ++ [r.entryIndex])) (AutoMap.empty, []) with
  | .ok (m, ids) => toString ids ++ match elements (fun e => e.2 == 0) m.root.toQ with
    | .ok es => toString ((es.map fun (k, v) => toString k ++ ":" ++ toString v).mergeSort)
    | x => oc x
  | x => oc x
-- files
def rd (f : Option OpenFile) (a : Arena) : String := match readFile f a with
  | .ok (st, v, a') => reprStr st ++ (if st == .success then s!" {View.bytes v a'.mem} {decide (a.beg ≤ v.buf ∧ v.buf + v.len ≤ a'.beg)}" else "") ++
      toString ((range (a.beg - 30) (a.stop + 30)).all fun x => decide (a.beg ≤ x ∧ x < a.stop) || a'.mem x == a.mem x)
  | x => oc x
def jk : Nat → Out Bool := fun _ => .ok false
def doc := S "<ul a=b c><li>x</li>y<br/></ul>"
def onDoc (f : Dom → String) : String := match createDom doc with | .ok (some d) => f d | .ok none => "none" | x => oc x
def same {α : Type} [DecidableEq α] (x y : Out α) : String := toString (decide (x = y))
def main : IO Unit := do
  for rs in reqs do
    for b in [65, 64, 66, 71] do IO.println s!"C45_blocks | {checkAllocs (ar b 128) rs}"
  for r in [(⟨8,8,2,true,false⟩ : Req), ⟨1,1,63,true,false⟩, ⟨1,1,64,false,false⟩, ⟨4,16,3,true,true⟩, ⟨4,16,4,true,true⟩, ⟨56,8,1,true,false⟩, ⟨57,8,1,true,false⟩] do
    IO.println s!"C45_failure | {fail1 (ar 65 128) r}"
  for c in [1, 3, 5, 7] do IO.println s!"C45_copyToArena | {copy1 (ar 65 128) 10 8 8 c} {copy1 (ar 65 128) 10 3 1 c}"
  for b in [33, 64, 100] do
    IO.println s!"C46_contents C46_placement | {kOK ops1 ⟨ar b 2000, []⟩ [] (ar b 2000)}"
    IO.println s!"C47_append C46_contents C42_copy_partial | {kOK ops2 ⟨ar b 2000, []⟩ [] (ar b 2000)}"
  IO.println s!"C46_push | {slot true} {slot false}"
  for (c, k) in [((64 : Int), (16 : Int)), (70, 16), (80, 20), (9, 9)] do IO.println s!"C51_alloc C51_free C51_live | {poolRun 4096 c k pops (createPool 4096 c k m0) []}"
  IO.println s!"C51_alloc | {poolJump}"
  IO.println s!"C64_reset_all_live_partial | {poolReset}"
  for o in bops do IO.println s!"C58_alloc C58_free C58_live | {buddyRun 4096 512 o (createBuddy 4096 512 m0) []}"
  for seed in List.range 12 do IO.println s!"C58_alloc C58_free C58_live | {randRun 60 (lcg (seed * 7919 + 13)) (createBuddy 4096 512 (if seed % 2 == 0 then m0 else fun _ => 0)) []}"
  for n in [1, 100, 240, 496] do IO.println s!"C73_fresh_grants_partial | {match buddyAlloc n 1 true false (createBuddy 4096 512 (fun _ => 0)) with | .ok (some p, _) => toString (decide (4096 + 16 ≤ p ∧ p + (n : Int) ≤ 4096 + 512)) | x => oc x}"
  IO.println s!"C65_refused_partial | {oc (buddyAlloc 497 1 false false (createBuddy 4096 512 m0))} {oc (buddyAlloc 600 1 false false (createBuddy 4096 512 m0))}"
  for n in [1, 16, 17, 40, 100, 112, 113, 200, 240, 241, 400, 495, 496] do IO.println s!"C73_fresh_grants_partial | {fresh1 n}"
  for (x, y) in [((⟨10,3⟩ : View), (⟨260,3⟩ : View)), (⟨10,3⟩, ⟨10,4⟩), (⟨10,3⟩, ⟨11,3⟩), (⟨10,0⟩, ⟨50,0⟩), (⟨10, 4⟩, ⟨260, 3⟩), (⟨10, 3⟩, ⟨260, 4⟩)] do IO.println s!"C53_equals | {stringEquals m0 x y}"
  let s := S "a=b==c="
  for k in [0,1,2,3,4,5,6,7] do IO.println s!"C53_firstOccurenceOfFrom | {firsts s 61 k} {firsts s 97 k} {firsts s 120 k}"
  for c in [61, 97, 98, 99, 120] do IO.println s!"C53_lastOccurenceOf | {lasts s c} {lasts [] c} {lasts [c] c}"
  for c in [61, 97, 98, 99, 120] do IO.println s!"C53_containsChar | {outS (containsChar s c)} {outS (containsChar [] c)}"
  for k in [0,1,2,3,4,5,6,7] do IO.println s!"C53_splitString | {outS (splitString s 61 k)} {outS (splitString s 99 k)}"
  IO.println s!"C53_djb2 | {outS (djb2Loop s 8 0 5381)} {outS (djb2Loop [] 1 0 5381)}"
  IO.println s!"C53_skeeto | {outS (skeetoLoop s 8 0 0x100)} {outS (skeetoLoop [] 1 0 0x100)}"
  for (x, y) in [((⟨0,2⟩ : View), (⟨1,3⟩ : View)), (⟨0,0⟩, ⟨1,3⟩), (⟨3,7⟩, ⟨3,7⟩), (⟨3,70⟩, ⟨3,7⟩), (⟨3,30⟩, ⟨3,3⟩), (⟨3,30⟩, ⟨3,4⟩)] do IO.println s!"C66_append | {app1 (ar 67 100) x y}"
  for (x, y) in [((⟨100,5⟩ : View), (⟨1,3⟩ : View)), (⟨100,5⟩, ⟨1,4⟩), (⟨100,1⟩, ⟨1,0⟩)] do IO.println s!"C66_copy_partial | {cp1 x y}"
  for p in ["a/b/c", "a", "", "out//site/index.html", "a/b/", "x//", "ab/c/d"] do IO.println s!"C52_mkdir_calls_partial | {outS (createPath (S p) (ar 0 100))} {oc (createPath (S p) (ar 0 5))}"
  IO.println s!"C52_violated | {outS (createPath (S "/tmp/site/index.html") (ar 0 100))}"
  IO.println s!"C50_string_set | {strSet names} {strSet (names ++ names.take 5)} {strSet [S "a", S "b", S "a"]}"
  IO.println s!"C50_uint16_set | {u16Set [3,17,4,3,9,65535,12,17]} {u16Set ((List.range 200).map fun (i : Nat) => UInt16.ofNat (i * 131 + 1))}"
  IO.println s!"C50_string_map | {(mapT (names.zip ((List.range 40).map fun (i : Nat) => UInt16.ofNat (i + 5)) ++ [(S "n3", 77)])).2}"
  IO.println s!"C67_existing_key_partial C67_new_key | {(mapT (names.zip ((List.range 40).map fun (i : Nat) => UInt16.ofNat (i + 5)) ++ [(S "n3", 77), (S "n9", 5)])).1}"
  IO.println s!"C50_name_table | {table}"
  IO.println s!"C68_short_paths | {depth16 ((List.range 3000).map fun (i : Nat) => UInt16.ofNat (i * 21 + 1))} {depth16 ((List.range 300).map fun (i : Nat) => UInt16.ofNat (i * 256))}"
  let near := ((List.range 65536).map fun (i : Nat) => UInt16.ofNat i).filter fun k => (hash16 k) >>> 5 == 7 || (hash16 k) <<< 5 == 64
  IO.println s!"C68_short_paths | {near.length != 0} {depth16 near} {depth16 near.reverse}"
  for (t, d) in [((3 : Int), [1,2,3]), (2, [1,2,3]), (4, [1,2,3]), (36, List.replicate 36 5), (35, List.replicate 40 6), (0, []), (33, [2])] do IO.println s!"C69_read_partial | {rd (some ⟨t, d⟩) (ar 65 100)}"
  IO.println s!"C69_cannot_open | {rd none (ar 65 100)}"
  let f := regularFile doc
  IO.println s!"C70_create | {same (createDomFromFile (some f) (ar 65 1000)) (createDom doc)}"
  IO.println ("C70_edits | " ++ onDoc fun d => same (appendHTMLFromFileWithQuery jk (fun _ => 77) (S "li") (some f) (ar 65 1000) d) (withQuery (fun _ => 77) (S "li") (fun n => appendHTML jk n doc) d) ++
    same (prependHTMLFromFileWithQuery jk (fun _ => 77) (S "ul") (some f) (ar 65 1000) d) (withQuery (fun _ => 77) (S "ul") (fun n => prependHTML jk n doc) d) ++
    same (replaceWithHTMLFromFileWithQuery jk (fun _ => 77) (S "li") (some f) (ar 65 1000) d) (withQuery (fun _ => 77) (S "li") (fun n => replaceWithHTML jk n doc) d))
  for g in [none, some (⟨5, [1]⟩ : OpenFile), some f] do IO.println ("C70_failure | " ++ onDoc fun d => same (createDomFromFile g (ar 65 70)) (.ok none) ++ same (appendHTMLFromFileWithQuery jk (fun _ => 77) (S "li") g (ar 65 70) d) (.ok (0, d)) ++
     same (prependHTMLFromFileWithQuery jk (fun _ => 77) (S "li") g (ar 65 70) d) (.ok (0, d)) ++ same (replaceWithHTMLFromFileWithQuery jk (fun _ => 77) (S "li") g (ar 65 70) d) (.ok (0, d)))
  for c in [true, false] do IO.println ("C71_write_partial | " ++ onDoc fun d => outS (writeHTMLToFile d (S "o/a") [0] (fun _ => c) [some 3, some 0, some 5] (ar 0 10000)))
  IO.println ("C71_print | " ++ onDoc fun d => match printHTMLTo d ⟨10, S "abc", [], [some 2, some 100]⟩ with | .ok b => s!"{b.data} {b.sink}" | x => oc x)
  for o in bops do IO.println s!"C75_buddy_alloc C75_buddy_free | {conf o (createBuddy 4096 512 m0) (createBuddy 4096 512 (mix 4096 4608 m0 out1)) []}"
  for n in [1, 16, 17, 48, 49, 112, 113, 240] do IO.println s!"C73_equal_requests_partial | {fillCount 512 n 40 (createBuddy 4096 512 m0)}"
  for (ns, i) in [([40, 24, 100], 0), ([40, 24, 100], 1), ([40, 24, 100], 2), ([16, 16, 16, 16], 1), ([16, 16, 16, 16, 200], 3)] do IO.println s!"C73_refree_partial | {refree ns i}"
