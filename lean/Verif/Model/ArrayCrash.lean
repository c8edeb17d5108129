import Verif.Model.Arena
/-!
# The array that a failing push leaves behind

Sources: `util/include/flo/util/array.h:33-75`, `util/include/flo/util/raw-data.h:14-36`.

In `Arena.lean` the outcome `longjmp` has no state.  Here the same functions are written with the array and the arena as they are when the
allocation leaves through the failure exit.
-/
namespace Flo

/-- Outcome: done, left through the failure exit with this array and arena (`util/src/memory/arena.c:17`), or undefined. -/
inductive ARes (α : Type) where
  | done (r : α)
  | fail (s : Arr) (a : Arena)
  | stop

/-- The call of `flo_alloc` in `flo_grow`, `util/include/flo/util/array.h:40,42,44`: it jumps before it has changed the arena
(`util/src/memory/arena.c:13-18`). -/
def allocOr {α : Type} (s : Arr) (a : Arena) (o : Out (Option Int × Arena)) (k : Option Int → Arena → ARes α) : ARes α :=
  match o with
  | .ok (p, a) => k p a
  | .longjmp => .fail s a
  | _ => .stop

/-- `flo_grow`, `util/include/flo/util/array.h:33-50`: the capacity of an array without buffer is written before the memory is asked for. -/
def arrGrowC (size align : Int) (zero : Bool) (s : Arr) (a : Arena) : ARes (Arr × Arena) :=
  match s.buf with
  | none =>
    let s := { s with cap := 1 }
    allocOr s a (arenaAlloc (2 * size) align s.cap zero false a) fun p a => .done ({ s with buf := p, cap := s.cap * 2 }, a)
  | some b =>
    if a.beg = b + size * s.cap then
      allocOr s a (arenaAlloc size 1 s.cap zero false a) fun _ a => .done ({ s with cap := s.cap * 2 }, a)
    else
      allocOr s a (arenaAlloc (2 * size) align s.cap zero false a) fun p a =>
        match p with
        | some p => .done ({ s with buf := some p, cap := s.cap * 2 }, { a with mem := memCopy p b (size * s.len) a.mem })
        | none => .stop

/-- `FLO_PUSH`, `util/include/flo/util/array.h:58-75`. -/
def arrPushC (size align : Int) (zero : Bool) (s : Arr) (a : Arena) : ARes (Int × Arr × Arena) :=
  match (if s.len ≥ s.cap then arrGrowC size align zero s a else .done (s, a)) with
  | .done (s, a) =>
    match s.buf with
    | some b => .done (b + size * s.len, { s with len := s.len + 1 }, a)
    | none => .stop
  | .fail s a => .fail s a
  | .stop => .stop

/-- The allocation step of `flo_addRawData`, `util/include/flo/util/raw-data.h:16-33`: a buffer that does not exist yet gets the length of the data
as its capacity before the memory is asked for. -/
def rawReserveC (n : Int) (s : Arr) (a : Arena) : ARes (Arr × Arena) :=
  if s.len + n > s.cap then
    let newCap := (s.len + n) * 2
    match s.buf with
    | none =>
      let s := { s with cap := n }
      allocOr s a (arenaAlloc 1 1 newCap false false a) fun p a => .done ({ s with buf := p, cap := newCap }, a)
    | some b =>
      if a.stop = b - s.cap then
        allocOr s a (arenaAlloc 1 1 newCap false false a) fun _ a => .done ({ s with cap := newCap }, a)
      else
        allocOr s a (arenaAlloc 1 1 newCap false false a) fun p a =>
          match p with
          | some p => .done ({ s with buf := some p, cap := newCap }, { a with mem := memCopy p b s.len a.mem })
          | none => .stop
  else .done (s, a)

/-- `flo_addRawData`, `util/include/flo/util/raw-data.h:14-36`. -/
def rawAddC (data : List UInt8) (s : Arr) (a : Arena) : ARes (Arr × Arena) :=
  match rawReserveC data.length s a with
  | .done (s, a) =>
    match s.buf with
    | some b => .done ({ s with len := s.len + data.length }, { a with mem := memWrite (b + s.len) data a.mem })
    | none => if data = [] then .done (s, a) else .stop
  | .fail s a => .fail s a
  | .stop => .stop

end Flo
