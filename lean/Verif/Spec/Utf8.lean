import Verif.Spec.Page
/-!
# UTF-8 (C112)
-/
namespace Flo.Spec

/-- A continuation byte. -/
def contByte (c : UInt8) : Prop := 0x80 ≤ c ∧ c ≤ 0xBF

/-- The encodings of one character (RFC 3629, section 4). -/
inductive Utf8Char : Str → Prop
  | one {a : UInt8} : a < 0x80 → Utf8Char [a]
  | two {a b : UInt8} : 0xC2 ≤ a → a ≤ 0xDF → contByte b → Utf8Char [a, b]
  | three {a b c : UInt8} : 0xE0 ≤ a → a ≤ 0xEF → (a = 0xE0 → 0xA0 ≤ b) → (a = 0xED → b ≤ 0x9F) → contByte b → contByte c → Utf8Char [a, b, c]
  | four {a b c d : UInt8} : 0xF0 ≤ a → a ≤ 0xF4 → (a = 0xF0 → 0x90 ≤ b) → (a = 0xF4 → b ≤ 0x8F) → contByte b → contByte c → contByte d →
      Utf8Char [a, b, c, d]

/-- A sequence of encoded characters. -/
inductive Utf8 : Str → Prop
  | nil : Utf8 []
  | cons {c s : Str} : Utf8Char c → Utf8 s → Utf8 (c ++ s)

/-- The last byte, if there is one, is an ASCII character. -/
def AsciiEnd (s : Str) : Prop := ∀ c, s.getLast? = some c → c < 0x80

/-- `x` is what remains of an attribute name or value in quotes that are not closed before the end of the input: all of it but the
last byte, which is part of a character. -/
def HalfCut (s x : Str) : Prop := ∃ a q c, s = a ++ q :: (x ++ [c]) ∧ (q = 34 ∨ q = 39) ∧ q ∉ x ∧ ¬ c < 0x80

mutual
/-- All names, values and texts in a tree. -/
def Tree.strings : Tree → List Str
  | .text raw => [raw]
  | .elem tag ps bs ts => tag :: ps.map (·.1) ++ ps.map (·.2) ++ bs ++ stringsAll ts
def stringsAll : List Tree → List Str
  | [] => []
  | t :: ts => t.strings ++ stringsAll ts
end

/-- The names, values and texts that are given to an operation; a fragment must end in an ASCII character. -/
def Op.InUtf8 : Op → Prop
  | .attr (.add _ k v) | .attr (.set _ k v) => Utf8 k ∧ Utf8 v
  | .attr (.addBool _ b) => Utf8 b
  | .attr (.remove _ _) | .attr (.removeBool _ _) | .removeNode _ | .removeChildren _ => True
  | .addText _ t _ | .setTag t _ _ | .setText _ t | .appendText _ t | .prependText _ t | .replaceText _ t => Utf8 t
  | .appendDoc _ doc | .prependDoc _ doc | .replaceDoc _ doc =>
    Utf8 doc.tag ∧ (∀ b ∈ doc.boolProps, Utf8 b) ∧ ∀ p ∈ doc.props, Utf8 p.1 ∧ Utf8 p.2
  | .appendHTML _ h | .prependHTML _ h | .replaceHTML _ h => Utf8 h ∧ AsciiEnd h

/-- The names, values and texts of a node. -/
def Label.strings : Label → List Str
  | .root => []
  | .text raw => [raw]
  | .elem tag ps bs => tag :: ps.map (·.1) ++ ps.map (·.2) ++ bs

/-- All names, values and texts on the page are UTF-8. -/
def Page.InUtf8 (pg : Page) : Prop := ∀ e ∈ pg.root.entries, ∀ x ∈ e.2.strings, Utf8 x

end Flo.Spec
