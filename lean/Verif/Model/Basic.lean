/-!
# Basic vocabulary of the model: bytes, strings, outcomes

Sources: `util/include/flo/util/text/char.h`, `util/include/flo/util/text/string.h`.
-/
namespace Flo

/-- `flo_String` (`util/include/flo/util/text/string.h:37-40`): a pointer and a length.  Modelled by the
bytes it denotes; aliasing is irrelevant because the library never writes through a `flo_String`
(`src/dom/dom.c:45-49` states this).  Strings of negative length have no representation here: the places
that could build one produce `Out.ub` instead. -/
abbrev Str := List UInt8

/-- Why an execution left the defined world (no counterpart in the C code). -/
inductive Why where
  /-- a read of a byte outside a string -/
  | oobRead
  /-- a `flo_String` with a negative length was built -/
  | negLen
  /-- a NULL pointer was dereferenced -/
  | nullDeref
  /-- an array was indexed outside its length -/
  | oobIndex
  /-- the inactive member of the node's union `{tagID, text}` was read as a string -/
  | badUnion
  /-- `memcpy` was called on overlapping blocks -/
  | overlap
  /-- a floating-point value outside the range of the integer type was converted to it -/
  | badConvert
  deriving DecidableEq, Repr

/-- Outcome of running a piece of the C code.  `longjmp` is `__builtin_longjmp(perm->jmp_buf, 1)`,
the arena's failure handler; `hang` means the loop did not finish within the given fuel. -/
inductive Out (α : Type) where
  | ok (a : α)
  | longjmp
  | ub (w : Why)
  | hang
  deriving DecidableEq, Repr

namespace Out

@[inline] def bind {α β : Type} (x : Out α) (f : α → Out β) : Out β :=
  match x with
  | ok a => f a
  | longjmp => longjmp
  | ub w => ub w
  | hang => hang

instance : Monad Out where
  pure := ok
  bind := bind

@[simp] theorem bind_ok {α β : Type} (a : α) (f : α → Out β) : ((ok a : Out α) >>= f) = f a := rfl
@[simp] theorem bind_longjmp {α β : Type} (f : α → Out β) : ((longjmp : Out α) >>= f) = longjmp := rfl
@[simp] theorem bind_ub {α β : Type} (w : Why) (f : α → Out β) : ((ub w : Out α) >>= f) = ub w := rfl
@[simp] theorem bind_hang {α β : Type} (f : α → Out β) : ((hang : Out α) >>= f) = hang := rfl
@[simp] theorem pure_eq {α : Type} (a : α) : (pure a : Out α) = ok a := rfl

instance : LawfulMonad Out := LawfulMonad.mk'
  (id_map := fun x => by cases x <;> rfl)
  (pure_bind := fun _ _ => rfl)
  (bind_assoc := fun x _ _ => by cases x <;> rfl)

theorem bind_eq_ok {α β : Type} {x : Out α} {f : α → Out β} {b : β} :
    (x >>= f) = ok b ↔ ∃ a, x = ok a ∧ f a = ok b := by
  cases x <;> simp

end Out

open Lean in
/-- `b!"text"` is the list of bytes of a string literal (elaborated to a list literal). -/
macro:max "b!" s:str : term => do
  let bytes := s.getString.toUTF8.toList
  let elems : Array (TSyntax `term) ←
    bytes.toArray.mapM fun b => `(($(quote b.toNat) : UInt8))
  `(([$elems,*] : List UInt8))

/-! Character constants (the literals in `src/parser.c`, `src/dom/query/query.c`, `util/include/flo/util/text/char.h`) -/
abbrev cSp : UInt8 := 32      -- ' '
abbrev cTab : UInt8 := 9      -- '\t'
abbrev cNl : UInt8 := 10      -- '\n'
abbrev cCr : UInt8 := 13      -- '\r'
abbrev cLt : UInt8 := 60      -- '<'
abbrev cGt : UInt8 := 62      -- '>'
abbrev cEq : UInt8 := 61      -- '='
abbrev cSlash : UInt8 := 47   -- '/'
abbrev cBang : UInt8 := 33    -- '!'
abbrev cDash : UInt8 := 45    -- '-'
abbrev cQuot : UInt8 := 39    -- '\''
abbrev cDQuot : UInt8 := 34   -- '"'

/-- `flo_isAlphabetical`, `util/include/flo/util/text/char.h:8-11`. -/
def isAlphabetical (ch : UInt8) : Bool :=
  (97 ≤ ch && ch ≤ 122) || (65 ≤ ch && ch ≤ 90)

/-- `flo_isFormattingCharacter`, `util/include/flo/util/text/char.h:13-16`. -/
def isFormatting (ch : UInt8) : Bool :=
  ch == cTab || ch == cNl || ch == cCr

/-- The condition `ch == ' ' || flo_isFormattingCharacter(ch)` used all over the parser
(`include/flo/html-parser/util/parse.h:95-97`). -/
def isSpace (ch : UInt8) : Bool := ch == cSp || isFormatting ch

/-- `flo_stringEquals`, `util/include/flo/util/text/string.h:42-45`: equal lengths and `memcmp` = 0. -/
def strEq (a b : Str) : Bool := a == b

/-- `flo_getChar` (`util/include/flo/util/text/string.h:55-60`) and the reads `s.buf[i]`: the bounds
`FLO_ASSERT` is a no-op in release builds (`util/include/flo/util/assert.h`), so an index outside the string
is undefined behaviour. -/
def charAt (s : Str) (i : Int) : Out UInt8 :=
  if i < 0 then .ub .oobRead
  else
    match s[i.toNat]? with
    | some c => .ok c
    | none => .ub .oobRead

/-- `FLO_STRING_LEN(flo_getCharPtr(s, start), len)`: a view of `len` bytes at `start`
(`util/include/flo/util/text/string.h:19-22,62-67`).  A negative length or a view reaching outside `s` is
undefined behaviour (a zero-length view at the end is the harmless one-past-the-end pointer). -/
def subStr (s : Str) (start len : Int) : Out Str :=
  if len < 0 then .ub .negLen
  else if start < 0 then .ub .oobRead
  else if (s.length : Int) < start + len then .ub .oobRead
  else .ok ((s.drop start.toNat).take len.toNat)

end Flo
