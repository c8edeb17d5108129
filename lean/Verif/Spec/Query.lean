import Verif.Spec.History
import Mathlib.Logic.Relation
/-!
# CSS queries: written form and meaning (C31, C32, C35)

The abstract syntax below covers the queries the library supports: compound selectors made of a tag name and
conditions in square brackets, `*` on its own in front, a class or id condition at the very end, the four
combinators, commas, and blanks in the usual places.  `Query.text` is the written form; `Query.selects` is the
meaning, in terms of the document tree (`kids`) and what is stored for a node (`tagOf`, `pairs`, `bools`).
-/
namespace Flo.Spec

/-- Space, tab, newline, carriage return. -/
def Blanks (w : Str) : Prop := ∀ c ∈ w, c = 32 ∨ c = 9 ∨ c = 10 ∨ c = 13

/-- A letter or `!`, which may start a name. -/
def NameStart (c : UInt8) : Prop := (97 ≤ c ∧ c ≤ 122) ∨ (65 ≤ c ∧ c ≤ 90) ∨ c = 33

/-- Bytes that end a tag name (or the query part): blanks, `> + ~ [ . # ,`. -/
def TagStop (c : UInt8) : Prop :=
  c = 32 ∨ c = 9 ∨ c = 10 ∨ c = 13 ∨ c = 62 ∨ c = 43 ∨ c = 126 ∨ c = 91 ∨ c = 46 ∨ c = 35 ∨ c = 44

/-- Bytes that end an attribute name or value (or the query part): blanks, `= ] ,`. -/
def WordStop (c : UInt8) : Prop := c = 32 ∨ c = 9 ∨ c = 10 ∨ c = 13 ∨ c = 61 ∨ c = 93 ∨ c = 44

/-- A tag name as it can be written in a query. -/
def TagWord (t : Str) : Prop := (∃ c l, t = c :: l ∧ NameStart c) ∧ ∀ c ∈ t, ¬TagStop c

/-- An attribute name or value as it can be written in a query. -/
def Word (t : Str) : Prop := (∃ c l, t = c :: l ∧ NameStart c) ∧ ∀ c ∈ t, ¬WordStop c

/-- A condition in square brackets, with the blanks written around the words. -/
inductive Cond
  | flag (w1 name w2 : Str)
  | eq (w1 key w2 w3 value w4 : Str)

/-- A class or id condition. -/
inductive Final
  | cls (v : Str)
  | ident (v : Str)

/-- `*`, or an optional tag name, conditions and an optional class or id. -/
inductive Compound
  | any
  | mk (tag : Option Str) (conds : List Cond) (final : Option Final)

inductive CombKind
  | child | descendant | adjacent | sibling

/-- A combinator and the blanks around it. -/
structure Comb where
  kind : CombKind
  before : Str
  after : Str

/-- A comma-free query. -/
structure Part where
  lead : Str
  first : Compound
  rest : List (Comb × Compound)
  trail : Str

/-- Parts separated by commas. -/
structure Query where
  head : Part
  tail : List Part

/-! ## Written form -/

def Cond.text : Cond → Str
  | .flag w1 n w2 => b!"[" ++ w1 ++ n ++ w2 ++ b!"]"
  | .eq w1 k w2 w3 v w4 => b!"[" ++ w1 ++ k ++ w2 ++ b!"=" ++ w3 ++ v ++ w4 ++ b!"]"

def Final.text : Final → Str
  | .cls v => b!"." ++ v
  | .ident v => b!"#" ++ v

def Compound.text : Compound → Str
  | .any => b!"*"
  | .mk t cs fin => t.getD [] ++ (cs.flatMap Cond.text ++ (fin.map Final.text).getD [])

def CombKind.text : CombKind → Str
  | .child => b!">"
  | .descendant => []
  | .adjacent => b!"+"
  | .sibling => b!"~"

def Comb.text (c : Comb) : Str := c.before ++ (c.kind.text ++ c.after)

def restText (rest : List (Comb × Compound)) : Str := rest.flatMap (fun r => r.1.text ++ r.2.text)

def Part.text (p : Part) : Str := p.lead ++ (p.first.text ++ (restText p.rest ++ p.trail))

def Query.text (q : Query) : Str := q.tail.foldl (fun acc p => acc ++ 44 :: p.text) q.head.text

/-! ## Which written forms are meant -/

def Cond.WF : Cond → Prop
  | .flag w1 n w2 => Blanks w1 ∧ Word n ∧ Blanks w2
  | .eq w1 k w2 w3 v w4 => Blanks w1 ∧ Word k ∧ Blanks w2 ∧ Blanks w3 ∧ Word v ∧ Blanks w4

def Final.word : Final → Str
  | .cls v => v
  | .ident v => v

/-- At least one condition; a class or id only if nothing follows (`isLast`). -/
def Compound.WF (isLast : Bool) : Compound → Prop
  | .any => True
  | .mk t cs fin => (∀ x, t = some x → TagWord x) ∧ (∀ c ∈ cs, c.WF) ∧
      (∀ f, fin = some f → isLast = true ∧ Word f.word) ∧ (t ≠ none ∨ cs ≠ [] ∨ fin ≠ none)

def Comb.WF (c : Comb) : Prop :=
  Blanks c.before ∧ Blanks c.after ∧ (c.kind.text = [] → c.before ++ c.after ≠ [])

/-- `*` is not allowed after a combinator. -/
def restWF : List (Comb × Compound) → Prop
  | [] => True
  | (k, c) :: r => k.WF ∧ Compound.WF r.isEmpty c ∧ c ≠ .any ∧ restWF r

def Part.WF (p : Part) : Prop := Blanks p.lead ∧ Blanks p.trail ∧ p.first.WF p.rest.isEmpty ∧ restWF p.rest

/-- The number of filters of a compound selector. -/
def Compound.size : Compound → Nat
  | .any => 1
  | .mk t cs fin => t.toList.length + cs.length + fin.toList.length

def Part.compounds (p : Part) : List Compound := p.first :: p.rest.map (·.2)

/-- No compound selector has more than eight filters. -/
def Part.Small (p : Part) : Prop := ∀ c ∈ p.compounds, c.size ≤ 8

def Query.parts (q : Query) : List Part := q.head :: q.tail

/-! ## Meaning -/

def Cond.holds (d : Dom) (n : Nat) : Cond → Prop
  | .flag _ b _ => b ∈ bools d n
  | .eq _ k _ _ v _ => (k, v) ∈ pairs d n

def Final.holds (d : Dom) (n : Nat) : Final → Prop
  | .cls v => (b!"class", v) ∈ pairs d n
  | .ident v => (b!"id", v) ∈ pairs d n

/-- Node `n` satisfies every condition. -/
def Compound.holds (d : Dom) (n : Nat) : Compound → Prop
  | .any => True
  | .mk t cs fin => (∀ x, t = some x → tagOf d n = some x) ∧ (∀ c ∈ cs, c.holds d n) ∧
      ∀ f, fin = some f → f.holds d n

/-- `n` is an element and a child of `v`. -/
def ElemChild (d : Dom) (v n : Nat) : Prop := n ∈ kids d v ∧ typeOf d n = some .document

/-- The relation a combinator stands for.  Siblings are sibling *nodes*, texts included. -/
def CombKind.rel (d : Dom) : CombKind → Nat → Nat → Prop
  | .child => ElemChild d
  | .descendant => Relation.TransGen (ElemChild d)
  | .adjacent => fun v n => ∃ p l₁ l₂, kids d p = l₁ ++ v :: n :: l₂
  | .sibling => fun v n => ∃ p l₁ l₂, kids d p = l₁ ++ v :: l₂ ∧ n ∈ l₂

/-- The nodes selected after further steps, if `S` are selected so far; `H c n` says that node `n` satisfies `c`. -/
def restSelects (H : Compound → Nat → Prop) (d : Dom) : List (Comb × Compound) → (Nat → Prop) → Nat → Prop
  | [], S => S
  | (k, c) :: r, S => restSelects H d r (fun n => H c n ∧ ∃ v, S v ∧ k.kind.rel d v n)

/-- The nodes a comma-free query selects, read from left to right. -/
def Part.selects (d : Dom) (p : Part) : Nat → Prop :=
  restSelects (fun c n => c.holds d n) d p.rest (fun n => IsNode d n ∧ p.first.holds d n)

def Query.selects (d : Dom) (q : Query) (n : Nat) : Prop := ∃ p ∈ q.parts, p.selects d n

/-! ## What the library looks at

The tag a selector is compared with is read from the node without looking at its type. -/

/-- The name recorded for entry `t` of the table of tags; entry 0 is not a name. -/
def tagName (d : Dom) (t : Nat) : Option Str := if t = 0 then none else (d.tagReg[t]?).map (·.1)

/-- The tag read from node `n`: that of an element, or of an element that was replaced; none for the root and for nodes
removed by `removeNode`; for a text whatever its pointer reads as (`pun`). -/
def storedTag (pun : Nat → Nat) (d : Dom) (n : Nat) : Option Str :=
  match d.nodes[n]? with
  | some ⟨_, .tag t⟩ => tagName d t
  | some ⟨_, .text _⟩ => tagName d (pun n)
  | none => none

/-- `Compound.holds` with the tag that is read. -/
def Compound.finds (pun : Nat → Nat) (d : Dom) (n : Nat) : Compound → Prop
  | .any => True
  | .mk t cs fin => (∀ x, t = some x → storedTag pun d n = some x) ∧ (∀ c ∈ cs, c.holds d n) ∧
      ∀ f, fin = some f → f.holds d n

def Part.finds (pun : Nat → Nat) (d : Dom) (p : Part) : Nat → Prop :=
  restSelects (fun c n => c.finds pun d n) d p.rest (fun n => IsNode d n ∧ p.first.finds pun d n)

def Query.finds (pun : Nat → Nat) (d : Dom) (q : Query) (n : Nat) : Prop := ∃ p ∈ q.parts, p.finds pun d n

/-! ## Names that occur in the document -/

def Cond.known (d : Dom) : Cond → Prop
  | .flag _ b _ => b ∈ d.boolReg.tail
  | .eq _ k _ _ v _ => k ∈ d.keyReg.tail ∧ v ∈ d.valReg.tail

def Final.known (d : Dom) : Final → Prop
  | .cls v => b!"class" ∈ d.keyReg.tail ∧ v ∈ d.valReg.tail
  | .ident v => b!"id" ∈ d.keyReg.tail ∧ v ∈ d.valReg.tail

/-- All names of the selector were recorded at some time (the registries never shrink; entry 0 is a dummy). -/
def Compound.known (d : Dom) : Compound → Prop
  | .any => True
  | .mk t cs fin => (∀ x, t = some x → x ∈ (d.tagReg.map (·.1)).tail) ∧ (∀ c ∈ cs, c.known d) ∧
      ∀ f, fin = some f → f.known d

def Part.known (d : Dom) (p : Part) : Prop := ∀ c ∈ p.compounds, c.known d

/-- Reading the tag of a text node (which the library does) does not by accident give the identifier of a
registered tag. -/
def PunFree (pun : Nat → Nat) (d : Dom) : Prop := ∀ n t, textOf d n = some t → pun n = 0 ∨ d.tagReg.length ≤ pun n

end Flo.Spec
