import Verif.Model.DomMem
import Verif.Spec.Memory
/-!
# Reading a DOM out of memory (C83, C84)

How a debugger would read the tables of a `flo_html_Dom`: little-endian numbers, strings as an address and a length, arrays as
entries of a fixed size one after the other.
-/
namespace Flo.Spec

/-- The number stored in the `n` bytes from `p` on, low byte first. -/
def number (mem : Int → UInt8) (p : Int) (n : Nat) : Nat := ((List.range n).map fun i : Nat => (mem (p + (i : Int))).toNat * 256 ^ i).sum

/-- The `n` bytes from `p` on. -/
def bytesFrom (mem : Int → UInt8) (p : Int) (n : Nat) : Str := (List.range n).map fun i : Nat => mem (p + (i : Int))

/-- The string designated by the address and the length at `p`. -/
def stringAt (mem : Int → UInt8) (p : Int) : Str := bytesFrom mem (number mem p 8) (number mem (p + 8) 8)

/-- The address of entry `i` of an array. -/
def entryAddr (s : Arr) (size : Int) (i : Nat) : Int := s.buf.getD 0 + size * (i : Int)

/-- The addresses of the entries of an array. -/
def entries (s : Arr) (size : Int) : List Int := (List.range s.len.toNat).map (entryAddr s size)

/-- Two identifiers, one after the other. -/
def pairAt (mem : Int → UInt8) (p : Int) : Row := (number mem p 2, number mem (p + 2) 2)

/-- Three identifiers, one after the other. -/
def tripleAt (mem : Int → UInt8) (p : Int) : PropRow := ⟨number mem p 2, number mem (p + 2) 2, number mem (p + 4) 2⟩

/-- A tag name and whether the element has an end tag. -/
def tagAt (mem : Int → UInt8) (p : Int) : Str × Bool := (stringAt mem p, mem (p + 16) != 0)

/-- The number of a node type. -/
def typeNumber : NodeType → Nat
  | .root => 0
  | .document => 1
  | .text => 2
  | .removed => 3
  | .error => 4

/-- Node `i` is at `p`: identifier, type and content. -/
structure NodeIn (mem : Int → UInt8) (p : Int) (i : Nat) (nd : Node) : Prop where
  id : number mem p 2 = i
  type : number mem (p + 4) 4 = typeNumber nd.type
  text : ∀ s, nd.payload = .text s → stringAt mem (p + 8) = s
  tag : ∀ t, nd.payload = .tag t → number mem (p + 8) 2 = t

/-- The tables of `d` are in memory, and looking a string up in a map finds what it finds in `d`. -/
structure InMemory (mem : Int → UInt8) (M : MDom) (d : Dom) : Prop where
  count : M.nodes.len = d.nodes.length
  nodes : ∀ i nd, d.nodes[i]? = some nd → NodeIn mem (entryAddr M.nodes 24 i) i nd
  firstChilds : (entries M.fc 4).map (pairAt mem) = d.fc
  childs : (entries M.pc 4).map (pairAt mem) = d.pc
  nexts : (entries M.nn 4).map (pairAt mem) = d.nn
  boolProps : (entries M.boolProps 4).map (pairAt mem) = d.boolProps
  props : (entries M.props 6).map (tripleAt mem) = d.props
  tagNames : (entries M.tagReg 24).map (tagAt mem) = d.tagReg
  boolNames : (entries M.boolReg 16).map (stringAt mem) = d.boolReg
  keyNames : (entries M.keyReg 16).map (stringAt mem) = d.keyReg
  valNames : (entries M.valReg 16).map (stringAt mem) = d.valReg
  findTag : ∀ k : MStr, memLookup k M.tagMap mem = .ok (d.tagMap.contains (bytesFrom mem k.ptr k.len))
  findBool : ∀ k : MStr, memLookup k M.boolMap mem = .ok (d.boolMap.contains (bytesFrom mem k.ptr k.len))
  findKey : ∀ k : MStr, memLookup k M.keyMap mem = .ok (d.keyMap.contains (bytesFrom mem k.ptr k.len))
  findVal : ∀ k : MStr, memLookup k M.valMap mem = .ok (d.valMap.contains (bytesFrom mem k.ptr k.len))

/-- A source text in memory that the arena will not hand out. -/
structure SourceAt (a : Arena) (src : MStr) (s : Str) : Prop where
  bytes : bytesFrom a.mem src.ptr src.len = s
  pos : 0 ≤ src.ptr
  top : src.ptr + src.len ≤ 2 ^ 62
  apart : src.len = 0 ∨ src.ptr + src.len ≤ a.beg ∨ a.stop ≤ src.ptr

/-- Two memories agree except on the free part of the arena. -/
def SameButFree (a : Arena) (mem mem' : Int → UInt8) : Prop := ∀ y, y < a.beg ∨ a.stop ≤ y → mem' y = mem y

end Flo.Spec
