import Verif.Model.Dom
/-!
# The table searches with their 16-bit counters

`src/dom/traversal.c:5-13`, `27-35` and `69-77` search a table with a loop whose counter has the type
`flo_html_node_id` (`uint16_t`).  `Model/Dom.lean` uses an unbounded search; here is the loop as written.
-/
namespace Flo

/-- `for (flo_html_node_id i = 0; i < table.len; i++) { if (test(table.buf[i])) return &table.buf[i]; } return NULL;`,
`src/dom/traversal.c:7-12`, `29-34`, `71-76`.  The comparison is made in `ptrdiff_t`; the increment wraps around at
2^16.  The fuel counts the tests of the loop condition; running out of it for every fuel is an endless loop. -/
def scan16 (test : Row → Bool) (table : List Row) : Nat → UInt16 → Out (Option Nat)
  | 0, _ => .hang
  | f + 1, i =>
    if i.toNat < table.length then
      if test (rowAt table i.toNat) then .ok (some i.toNat) else scan16 test table f (i + 1)
    else .ok none

/-- `flo_html_getFirstChildNode`, `src/dom/traversal.c:5-13`. -/
def getFirstChildNode16 (f n : Nat) (d : Dom) : Out (Option Nat) := scan16 (·.1 == n) d.fc f 0

/-- `flo_html_getNextNode`, `src/dom/traversal.c:27-35`. -/
def getNextNode16 (f n : Nat) (d : Dom) : Out (Option Nat) := scan16 (·.1 == n) d.nn f 0

/-- `flo_html_getPreviousNode`, `src/dom/traversal.c:69-77`. -/
def getPreviousNode16 (f n : Nat) (d : Dom) : Out (Option Nat) := scan16 (·.2 == n) d.nn f 0

end Flo
